import Verif.Model.Stale
import Verif.Props.Selector
import Verif.Props.Managers

/-
Property theorems about selectors that are kept: C84.
-/

namespace Verif.Props
open Verif.Py Verif.Model

variable {V : Type}

/-! ### Specification -/

/-- What happened does not concern the manager with the given name and number: no other manager of that name was made, the
manager was not loaded again, and the context was not reset.  Items may have been created in it, and it may have been
destroyed. -/
def LeavesAlone (m : String) (k : Option Nat) : SelOp V → Prop
  | .make name _ => name ≠ m
  | .load j _ _ => k ≠ some j
  | .create _ _ _ _ => True
  | .destroy _ => True
  | .reset => False

/-- The operation creates an item in the manager with the given number. -/
def CreatesIn (k : Nat) (op : SelOp V) : Prop := ∃ reg p v, op = .create k reg p v

/-- The collections a manager with the given name has now. -/
def CollectionsNow (w : SelWorld V) (m : String) (k : Nat) (r : Registry V) : Prop :=
  AList.get? w.active m = some k ∧ ∃ mgr n, w.managers[k]? = some mgr ∧ mgr.loaded = some n ∧ w.loads[n]? = some r

/-! ### Lemmas -/

theorem after_cons (w : SelWorld V) (op : SelOp V) (ops : List (SelOp V)) :
    w.after (op :: ops) = (op.apply w).after ops := rfl

theorem after_append (w : SelWorld V) (ops ops' : List (SelOp V)) : w.after (ops ++ ops') = (w.after ops).after ops' :=
  List.foldl_append

/-- Every manager has the collections of its classes, from a load that happened. -/
def SoundWorld (w : SelWorld V) : Prop :=
  ∀ (k : Nat) (mgr : ManagerObj), w.managers[k]? = some mgr → ∀ n, mgr.loaded = some n →
    ∃ r, w.loads[n]? = some r ∧ r.specific.map Prod.fst = mgr.classNames

theorem setRegistry_names (r : Registry V) (reg : Option String) (p : List String) (v : String × Reg V) :
    (r.set reg p v).2.specific.map Prod.fst = r.specific.map Prod.fst := by
  unfold Registry.set
  cases reg with
  | none => rfl
  | some name =>
    simp only
    cases h : AList.get? r.specific name with
    | none => rfl
    | some g =>
      simp only
      rw [AList.keys_set, if_pos]
      exact (AList.get?_isSome_iff _ _).1 (by rw [h]; rfl)

theorem sound_apply {w : SelWorld V} (h : SoundWorld w) (op : SelOp V) : SoundWorld (op.apply w) := by
  cases op with
  | make name classNames =>
    intro k mgr hk n hn
    simp only [SelOp.apply] at hk ⊢
    rw [List.getElem?_append] at hk
    split at hk
    · exact h k mgr hk n hn
    · have := List.mem_singleton.1 (List.mem_of_getElem? hk)
      rw [this] at hn
      cases hn
  | load j general specific =>
    intro k mgr hk n hn
    simp only [SelOp.apply] at hk ⊢
    cases hj : w.managers[j]? with
    | none =>
      rw [hj] at hk
      exact h k mgr hk n hn
    | some m =>
      rw [hj] at hk
      simp only at hk ⊢
      rw [List.getElem?_set] at hk
      split at hk
      · next e =>
        split at hk
        · cases hk
          cases hn
          exact ⟨_, List.getElem?_concat_length, by simp [Function.comp_def]⟩
        · cases hk
      · obtain ⟨r, h1, h2⟩ := h k mgr hk n hn
        refine ⟨r, ?_, h2⟩
        rw [List.getElem?_append_left (List.getElem?_eq_some_iff.1 h1).1]
        exact h1
  | create j reg p v =>
    intro k mgr hk n hn
    simp only [SelOp.apply] at hk ⊢
    cases hj : (w.managers[j]?).bind ManagerObj.loaded with
    | none =>
      rw [hj] at hk
      exact h k mgr hk n hn
    | some n' =>
      rw [hj] at hk
      simp only at hk ⊢
      cases hl : w.loads[n']? with
      | none =>
        rw [hl] at hk
        exact h k mgr hk n hn
      | some r =>
        rw [hl] at hk
        simp only at hk ⊢
        obtain ⟨r', h1, h2⟩ := h k mgr hk n hn
        rw [List.getElem?_set]
        split
        · next e =>
          subst e
          rw [if_pos (List.getElem?_eq_some_iff.1 hl).1]
          rw [hl] at h1
          cases h1
          exact ⟨_, rfl, (setRegistry_names r reg p v).trans h2⟩
        · exact ⟨r', h1, h2⟩
  | destroy j =>
    intro k mgr hk n hn
    simp only [SelOp.apply] at hk ⊢
    cases hj : w.managers[j]? with
    | none =>
      rw [hj] at hk
      exact h k mgr hk n hn
    | some m =>
      rw [hj] at hk
      simp only at hk ⊢
      split at hk
      · next e => rw [if_pos e]; exact h k mgr hk n hn
      · next e => rw [if_neg e]; exact h k mgr hk n hn
  | reset => exact h

theorem sound_after (ops : List (SelOp V)) : ∀ {w : SelWorld V}, SoundWorld w → SoundWorld (w.after ops) := by
  induction ops with
  | nil => exact fun h => h
  | cons op ops ih => exact fun h => ih (sound_apply h op)

theorem sound_start : SoundWorld (SelWorld.start : SelWorld V) := by
  intro k mgr hk
  simp [SelWorld.start] at hk

theorem loadStructure_get {w : SelWorld V} {l : List (String × Nat)} {entries : List (String × Nat)}
    (h : w.loadStructure l = .ok entries) (m : String) :
    (AList.get? l m = none ∧ AList.get? entries m = none) ∨
      ∃ k n, AList.get? l m = some k ∧ AList.get? entries m = some n ∧ (w.managers[k]?).bind ManagerObj.loaded = some n := by
  induction l generalizing entries with
  | nil =>
    rw [SelWorld.loadStructure] at h
    cases h
    exact Or.inl ⟨rfl, rfl⟩
  | cons e l ih =>
    obtain ⟨name, k⟩ := e
    rw [SelWorld.loadStructure] at h
    split at h
    · cases h
    · next n hn =>
      split at h
      · cases h
      · next others ho =>
        cases h
        rw [AList.get?, AList.get?]
        by_cases hx : name = m
        · rw [if_pos hx, if_pos hx]
          exact Or.inr ⟨k, n, rfl, rfl, hn⟩
        · rw [if_neg hx, if_neg hx]
          exact ih ho

theorem selector_get {w : SelWorld V} {s : Selr} (h : w.selector = .ok s) (m : String) : s.dict = w.past.length ∧
    ((AList.get? w.active m = none ∧ AList.get? s.structure_ m = none) ∨
      ∃ k mgr n, AList.get? w.active m = some k ∧ AList.get? s.structure_ m = some n ∧ w.managers[k]? = some mgr ∧
        mgr.loaded = some n) := by
  unfold SelWorld.selector at h
  split at h
  · cases h
  · next entries he =>
    cases h
    refine ⟨rfl, ?_⟩
    rcases loadStructure_get he m with h | ⟨k, n, h1, h2, h3⟩
    · exact Or.inl h
    · cases hk : w.managers[k]? with
      | none =>
        rw [hk] at h3
        cases h3
      | some mgr =>
        rw [hk] at h3
        exact Or.inr ⟨k, mgr, n, h1, h2, hk, h3⟩

theorem collectionFor_congr {w w' : SelWorld V} {s s' : Selr} {m : String} {q : List String}
    (h1 : (AList.get? (w.dictAt s.dict) m).bind (fun k => w.managers[k]?)
      = (AList.get? (w'.dictAt s'.dict) m).bind (fun k => w'.managers[k]?))
    (h2 : ((AList.get? (w.dictAt s.dict) m).bind (fun k => w.managers[k]?) ≠ none) →
      (AList.get? s.structure_ m).bind (fun n => w.loads[n]?) = (AList.get? s'.structure_ m).bind (fun n => w'.loads[n]?)) :
    w.collectionFor s (m :: q) = w'.collectionFor s' (m :: q) := by
  unfold SelWorld.collectionFor
  simp only
  rw [← h1]
  cases hm : (AList.get? (w.dictAt s.dict) m).bind (fun k => w.managers[k]?) with
  | none => rfl
  | some mgr =>
    have : ∀ x, w.inStructure s m x = w'.inStructure s' m x := by
      intro x
      unfold SelWorld.inStructure
      rw [h2 (by rw [hm]; simp)]
    simp only [this]

theorem contains_congr {w w' : SelWorld V} {s s' : Selr} {path : String}
    (h : w.collectionFor s (SectionPath.mk path).sections = w'.collectionFor s' (SectionPath.mk path).sections) :
    w.contains s path = w'.contains s' path := by
  unfold SelWorld.contains
  rw [h]

theorem dictAt_active (w : SelWorld V) : w.dictAt w.past.length = w.active := by simp [SelWorld.dictAt]

/-- What stays of a manager that is left alone. -/
theorem leaves_apply {w : SelWorld V} {m : String} {k : Nat} {mgr : ManagerObj} {k0 : Option Nat} (op : SelOp V)
    (hop : LeavesAlone m k0 op) (hk0 : k0 = some k) (hm : w.managers[k]? = some mgr)
    (ha : AList.get? w.active m = none ∨ AList.get? w.active m = some k) :
    (op.apply w).past.length = w.past.length ∧ (op.apply w).managers[k]? = some mgr ∧
      (AList.get? (op.apply w).active m = none ∨ AList.get? (op.apply w).active m = some k) := by
  subst hk0
  cases op with
  | make name classNames =>
    refine ⟨rfl, ?_, ?_⟩
    · simp only [SelOp.apply]
      rw [List.getElem?_append_left (List.getElem?_eq_some_iff.1 hm).1]
      exact hm
    · simp only [SelOp.apply]
      rw [AList.get?_set, if_neg (fun e => hop (by first | exact e | exact e.symm))]
      exact ha
  | load j general specific =>
    simp only [SelOp.apply]
    cases hj : w.managers[j]? with
    | none => exact ⟨rfl, hm, ha⟩
    | some m' =>
      refine ⟨rfl, ?_, ha⟩
      simp only
      rw [List.getElem?_set_ne (fun e => hop (by rw [e]))]
      exact hm
  | create j reg p v =>
    simp only [SelOp.apply]
    split
    · exact ⟨rfl, hm, ha⟩
    · split
      · exact ⟨rfl, hm, ha⟩
      · exact ⟨rfl, hm, ha⟩
  | destroy j =>
    simp only [SelOp.apply]
    cases hj : w.managers[j]? with
    | none => exact ⟨rfl, hm, ha⟩
    | some m' =>
      simp only
      split
      · refine ⟨rfl, hm, ?_⟩
        simp only
        rw [alist_get?_del]
        split
        · exact Or.inl rfl
        · exact ha
      · exact ⟨rfl, hm, ha⟩
  | reset => exact absurd hop id

theorem leaves_after {m : String} {k : Nat} {mgr : ManagerObj} (ops : List (SelOp V)) :
    ∀ {w : SelWorld V}, (∀ op ∈ ops, LeavesAlone m (some k) op) → w.managers[k]? = some mgr →
      (AList.get? w.active m = none ∨ AList.get? w.active m = some k) →
      (w.after ops).past.length = w.past.length ∧ (w.after ops).managers[k]? = some mgr ∧
        (AList.get? (w.after ops).active m = none ∨ AList.get? (w.after ops).active m = some k) := by
  induction ops with
  | nil => exact fun _ hm ha => ⟨rfl, hm, ha⟩
  | cons op ops ih =>
    intro w hops hm ha
    obtain ⟨h1, h2, h3⟩ := leaves_apply op (hops op (by simp)) rfl hm ha
    obtain ⟨g1, g2, g3⟩ := ih (fun o ho => hops o (by simp [ho])) h2 h3
    exact ⟨g1.trans h1, g2, g3⟩

theorem leaves_none {m : String} (ops : List (SelOp V)) :
    ∀ {w : SelWorld V}, (∀ op ∈ ops, LeavesAlone m none op) → AList.get? w.active m = none →
      (w.after ops).past.length = w.past.length ∧ AList.get? (w.after ops).active m = none := by
  induction ops with
  | nil => exact fun _ ha => ⟨rfl, ha⟩
  | cons op ops ih =>
    intro w hops ha
    have h : (op.apply w).past.length = w.past.length ∧ AList.get? (op.apply w).active m = none := by
      have hop := hops op (by simp)
      cases op with
      | make name classNames =>
        refine ⟨rfl, ?_⟩
        simp only [SelOp.apply]
        rw [AList.get?_set, if_neg (fun e => hop (by first | exact e | exact e.symm))]
        exact ha
      | load j general specific =>
        simp only [SelOp.apply]
        cases w.managers[j]? <;> exact ⟨rfl, ha⟩
      | create j reg p v =>
        simp only [SelOp.apply]
        split
        · exact ⟨rfl, ha⟩
        · split <;> exact ⟨rfl, ha⟩
      | destroy j =>
        simp only [SelOp.apply]
        cases w.managers[j]? with
        | none => exact ⟨rfl, ha⟩
        | some m' =>
          simp only
          split
          · refine ⟨rfl, ?_⟩
            simp only
            rw [alist_get?_del, ha]
            split <;> rfl
          · exact ⟨rfl, ha⟩
      | reset => exact absurd hop id
    obtain ⟨g1, g2⟩ := ih (fun o ho => hops o (by simp [ho])) h.2
    exact ⟨g1.trans h.1, g2⟩

/-! ## C84 -/

/-- A selector just made answers by the collections the managers have now. -/
theorem C84_now (ops : List (SelOp V)) (s : Selr) (hs : (SelWorld.start.after ops).selector = .ok s) (m : String) (k : Nat)
    (r : Registry V) (hr : CollectionsNow (SelWorld.start.after ops) m k r) (q : List String) (path : String)
    (hp : (SectionPath.mk path).sections = m :: q) :
    (SelWorld.start.after ops).contains s path = selContains [(m, r)] path := by
  have hw := sound_after ops (sound_start (V := V))
  generalize SelWorld.start.after ops = w at *
  obtain ⟨hd, h⟩ := selector_get hs m
  obtain ⟨ha, mgr, n, hm, hn, hl⟩ := hr
  rcases h with ⟨h1, _⟩ | ⟨k', mgr', n', h1, h2, h3, h4⟩
  · rw [ha] at h1
    cases h1
  · rw [ha] at h1
    cases h1
    rw [hm] at h3
    cases h3
    rw [hn] at h4
    cases h4
    obtain ⟨r', hl', hnames⟩ := hw k mgr hm n hn
    rw [hl] at hl'
    cases hl'
    have hin : ∀ x, w.inStructure s m x = match AList.get? (Reg.nameDict (("_general", r.general) :: r.specific)) x with
        | none => .error .keyError
        | some c => .ok c := by
      intro x
      unfold SelWorld.inStructure
      rw [h2]
      simp only [Option.bind_some, hl]
      cases AList.get? (Reg.nameDict (("_general", r.general) :: r.specific)) x <;> rfl
    have hc : w.collectionFor s (m :: q) = selCollection [(m, r)] (m :: q) := by
      unfold SelWorld.collectionFor selCollection
      simp only
      rw [hd, dictAt_active, ha]
      simp only [Option.bind_some, hm, AList.get?, if_true]
      cases q with
      | nil => rfl
      | cons x q =>
        simp only
        rw [hnames]
        by_cases hx : x ∈ mgr.classNames
        · rw [if_pos hx, if_pos hx, hin]
          obtain ⟨c, _, hc⟩ := structure_specific (r := r) (x := x) (by rw [hnames]; exact hx)
          rw [hc]
          cases q <;> rfl
        · rw [if_neg hx, if_neg hx, hin]
          cases AList.get? (Reg.nameDict (("_general", r.general) :: r.specific)) "_general" <;> rfl
    unfold SelWorld.contains selContains
    rw [hp, hc]
    cases selCollection [(m, r)] (m :: q) with
    | error e => rfl
    | ok o => cases o <;> rfl

/-- A selector made before gives the same answers as one made now about every manager that was left alone since; creating items
in it, and destroying it, included. -/
theorem C84_same_partial (w : SelWorld V) (s : Selr) (hs : w.selector = .ok s) (ops : List (SelOp V)) (m : String)
    (hops : ∀ op ∈ ops, LeavesAlone m (AList.get? w.active m) op) (fresh : Selr)
    (hf : (w.after ops).selector = .ok fresh) (q : List String) (path : String)
    (hp : (SectionPath.mk path).sections = m :: q) :
    (w.after ops).contains s path = (w.after ops).contains fresh path := by
  obtain ⟨hd, h⟩ := selector_get hs m
  obtain ⟨hd', h'⟩ := selector_get hf m
  apply contains_congr
  rw [hp]
  rcases h with ⟨h1, h2⟩ | ⟨k, mgr, n, h1, h2, h3, h4⟩
  · rw [h1] at hops
    obtain ⟨g1, g2⟩ := leaves_none ops hops h1
    have e1 : AList.get? ((w.after ops).dictAt s.dict) m = none := by rw [hd, ← g1, dictAt_active, g2]
    have e2 : AList.get? ((w.after ops).dictAt fresh.dict) m = none := by rw [hd', dictAt_active, g2]
    exact collectionFor_congr (by rw [e1, e2]) (fun hne => absurd (by rw [e1]; rfl) hne)
  · rw [h1] at hops
    obtain ⟨g1, g2, g3⟩ := leaves_after ops hops h3 (Or.inr h1)
    have e : (w.after ops).dictAt s.dict = (w.after ops).dictAt fresh.dict := by rw [hd, hd', g1]
    refine collectionFor_congr (by rw [e]) (fun hne => ?_)
    rcases h' with ⟨i1, _⟩ | ⟨k', mgr', n', i1, i2, i3, i4⟩
    · rw [e, hd', dictAt_active, i1] at hne
      exact absurd rfl hne
    · rcases g3 with g3 | g3
      · rw [g3] at i1
        cases i1
      · rw [g3] at i1
        cases i1
        rw [g2] at i3
        cases i3
        rw [h4] at i4
        cases i4
        rw [h2, i2]

theorem creates_keep {k n : Nat} {mgr : ManagerObj} (hn : mgr.loaded = some n) (ops : List (SelOp V)) :
    ∀ {w : SelWorld V}, (∀ op ∈ ops, CreatesIn k op) → w.managers[k]? = some mgr →
      (w.after ops).managers = w.managers ∧ (w.after ops).past = w.past ∧ (w.after ops).active = w.active ∧
        ∀ i, i ≠ n → (w.after ops).loads[i]? = w.loads[i]? := by
  induction ops with
  | nil => exact fun _ _ => ⟨rfl, rfl, rfl, fun _ _ => rfl⟩
  | cons op ops ih =>
    intro w hops hm
    obtain ⟨reg, p, v, rfl⟩ := hops op (by simp)
    have h : (SelOp.apply w (.create k reg p v)).managers = w.managers ∧ (SelOp.apply w (.create k reg p v)).past = w.past ∧
        (SelOp.apply w (.create k reg p v)).active = w.active ∧
        ∀ i, i ≠ n → (SelOp.apply w (.create k reg p v)).loads[i]? = w.loads[i]? := by
      simp only [SelOp.apply, hm, Option.bind_some, hn]
      cases w.loads[n]? with
      | none => exact ⟨rfl, rfl, rfl, fun _ _ => rfl⟩
      | some r => exact ⟨rfl, rfl, rfl, fun i hi => List.getElem?_set_ne (fun e => hi e.symm)⟩
    obtain ⟨g1, g2, g3, g4⟩ := ih (w := SelOp.apply w (.create k reg p v)) (fun o ho => hops o (by simp [ho])) (by rw [h.1]; exact hm)
    exact ⟨g1.trans h.1, g2.trans h.2.1, g3.trans h.2.2.1, fun i hi => (g4 i hi).trans (h.2.2.2 i hi)⟩

theorem reloaded_contains (before : List (SelOp V)) (s : Selr) (hs : (SelWorld.start.after before).selector = .ok s) (k : Nat)
    (general : Reg V) (specific : String → Reg V) (ops : List (SelOp V)) (hops : ∀ op ∈ ops, CreatesIn k op) (path : String) :
    ((SelWorld.start.after before).after (.load k general specific :: ops)).contains s path
      = (SelWorld.start.after before).contains s path := by
  have hw := sound_after before (sound_start (V := V))
  generalize SelWorld.start.after before = w at *
  rw [after_cons]
  apply contains_congr
  cases hsec : (SectionPath.mk path).sections with
  | nil => rfl
  | cons m q =>
    cases hk : w.managers[k]? with
    | none =>
      have e1 : SelOp.apply w (.load k general specific) = w := by simp only [SelOp.apply, hk]
      have e2 : ∀ (l : List (SelOp V)), (∀ op ∈ l, CreatesIn k op) → w.after l = w := by
        intro l
        induction l with
        | nil => exact fun _ => rfl
        | cons op l ih =>
          intro hl
          obtain ⟨reg, p, v, rfl⟩ := hl op (by simp)
          rw [after_cons]
          have : SelOp.apply w (.create k reg p v) = w := by simp only [SelOp.apply, hk, Option.bind_none]
          rw [this]
          exact ih (fun o ho => hl o (by simp [ho]))
      rw [e1, e2 ops hops]
    | some mgr =>
      have e1 : SelOp.apply w (.load k general specific)
          = { w with managers := w.managers.set k { mgr with loaded := some w.loads.length },
                     loads := w.loads ++ [⟨mgr.classNames.map (fun n => (n, specific n)), general⟩] } := by
        simp only [SelOp.apply, hk]
      have hlt := (List.getElem?_eq_some_iff.1 hk).1
      obtain ⟨g1, g2, g3, g4⟩ := creates_keep (k := k) (n := w.loads.length) (mgr := { mgr with loaded := some w.loads.length })
        rfl ops (w := SelOp.apply w (.load k general specific)) hops (by rw [e1]; simp [hlt])
      obtain ⟨hd, h⟩ := selector_get hs m
      have hdict : ((SelOp.apply w (.load k general specific)).after ops).dictAt s.dict = w.active := by
        have : s.dict = ((SelOp.apply w (.load k general specific)).after ops).past.length := by rw [g2, e1, hd]
        rw [this, dictAt_active, g3, e1]
      have hdict' : w.dictAt s.dict = w.active := by rw [hd, dictAt_active]
      have hloads : ∀ i, i < w.loads.length → ((SelOp.apply w (.load k general specific)).after ops).loads[i]? = w.loads[i]? := by
        intro i hi
        rw [g4 i (by omega), e1]
        exact List.getElem?_append_left hi
      rcases h with ⟨h1, _⟩ | ⟨k', mgr', n, h1, h2, h3, h4⟩
      · exact collectionFor_congr (by rw [hdict, hdict', h1]; rfl) (fun hne => absurd (by rw [hdict, h1]; rfl) hne)
      · obtain ⟨r, hr, _⟩ := hw k' mgr' h3 n h4
        have hstr : (AList.get? s.structure_ m).bind
            (fun n => ((SelOp.apply w (.load k general specific)).after ops).loads[n]?)
            = (AList.get? s.structure_ m).bind (fun n => w.loads[n]?) := by
          rw [h2]
          exact hloads n (List.getElem?_eq_some_iff.1 hr).1
        have hin : ∀ x, ((SelOp.apply w (.load k general specific)).after ops).inStructure s m x = w.inStructure s m x := by
          intro x
          unfold SelWorld.inStructure
          rw [hstr]
        have hnames : ∃ a b, ((AList.get? w.active m).bind (fun j => ((SelOp.apply w (.load k general specific)).after ops).managers[j]?))
              = some a ∧ (AList.get? w.active m).bind (fun j => w.managers[j]?) = some b ∧ a.classNames = b.classNames := by
          rw [h1, Option.bind_some, Option.bind_some, g1, e1]
          by_cases hkk : k = k'
          · subst hkk
            rw [hk] at h3
            cases h3
            exact ⟨_, _, List.getElem?_set_self hlt, hk, rfl⟩
          · exact ⟨mgr', mgr', (List.getElem?_set_ne hkk).trans h3, h3, rfl⟩
        obtain ⟨a, b, ha, hb, hab⟩ := hnames
        unfold SelWorld.collectionFor
        simp only
        rw [hdict, hdict', ha, hb]
        simp only [hin, hab]

/-- After a manager is loaded again, a selector made before still answers everything as before, whatever was loaded and whatever
is created in the manager then; one made now answers by the collections the manager has now. -/
theorem C84_reloaded (before : List (SelOp V)) (s : Selr) (hs : (SelWorld.start.after before).selector = .ok s) (k : Nat)
    (general : Reg V) (specific : String → Reg V) (ops : List (SelOp V)) (hops : ∀ op ∈ ops, CreatesIn k op) (fresh : Selr)
    (hf : ((SelWorld.start.after before).after (.load k general specific :: ops)).selector = .ok fresh) (m : String)
    (r : Registry V) (hr : CollectionsNow ((SelWorld.start.after before).after (.load k general specific :: ops)) m k r)
    (q : List String) (path : String) (hp : (SectionPath.mk path).sections = m :: q) :
    ((SelWorld.start.after before).after (.load k general specific :: ops)).contains s path
      = (SelWorld.start.after before).contains s path ∧
    ((SelWorld.start.after before).after (.load k general specific :: ops)).contains fresh path = selContains [(m, r)] path := by
  refine ⟨reloaded_contains before s hs k general specific ops hops path, ?_⟩
  rw [← after_append] at hf hr ⊢
  exact C84_now _ fresh hf m k r hr q path hp

/-- What destroying a manager does to every selector made before: if it is the one that has the name now, everything at the name
is a `KeyError` from then on; otherwise nothing changes. -/
theorem C84_destroyed (w : SelWorld V) (s : Selr) (hs : w.selector = .ok s) (k : Nat) (mgr : ManagerObj)
    (hk : w.managers[k]? = some mgr) (m : String) (q : List String) (path : String)
    (hp : (SectionPath.mk path).sections = m :: q) :
    (w.after [.destroy k]).contains s path =
      if m = mgr.name ∧ AList.get? w.active mgr.name = some k then .error .keyError else w.contains s path := by
  obtain ⟨hd, _⟩ := selector_get hs m
  have hafter : w.after [.destroy k] =
      if AList.get? w.active mgr.name = some k then { w with active := AList.del w.active mgr.name } else w := by
    show SelOp.apply w (.destroy k) = _
    simp only [SelOp.apply, hk]
  by_cases ha : AList.get? w.active mgr.name = some k
  · rw [if_pos ha] at hafter
    rw [hafter]
    have hda : ({ w with active := AList.del w.active mgr.name } : SelWorld V).dictAt s.dict = AList.del w.active mgr.name := by
      rw [hd]
      simp [SelWorld.dictAt]
    by_cases hm : m = mgr.name
    · rw [if_pos ⟨hm, ha⟩]
      unfold SelWorld.contains SelWorld.collectionFor
      rw [hp]
      simp only
      rw [hda, alist_get?_del, if_pos hm]
      rfl
    · rw [if_neg (fun h => hm h.1)]
      apply contains_congr
      rw [hp]
      refine collectionFor_congr ?_ (fun _ => rfl)
      rw [hda, alist_get?_del, if_neg hm, hd, dictAt_active]
  · rw [if_neg ha] at hafter
    rw [hafter, if_neg (fun h => ha h.2)]

/-- Both cases happen. -/
example (c : Reg Nat) : let w : SelWorld Nat := SelWorld.start.after [.make "p" [], .make "p" [], .load 1 c (fun _ => .other)]
    ∃ s, w.selector = .ok s ∧ (w.after [.destroy 0]).contains s "p" = .ok true ∧
      (w.after [.destroy 1]).contains s "p" = .error .keyError :=
  ⟨⟨0, [("p", 0)]⟩, rfl, rfl, rfl⟩

/-- C84 does not hold for a manager that is loaded again: an item that is new in the definition is missing in the selector made
before, and one that was removed from it is still there. -/
theorem C84_reload_violated (c : Callable V) :
    let definition (x : String) : Reg V := .coll false [("sec", .coll false [(x, .item c)])]
    let before : SelWorld V := SelWorld.start.after [.make "p" [], .load 0 (definition "f") (fun _ => .other)]
    let now : SelWorld V := before.after [.load 0 (definition "g") (fun _ => .other)]
    ∃ s fresh, before.selector = .ok s ∧ now.selector = .ok fresh ∧
      now.contains s "p.sec.g" = .ok false ∧ now.contains fresh "p.sec.g" = .ok true ∧
      now.contains s "p.sec.f" = .ok true ∧ now.contains fresh "p.sec.f" = .ok false :=
  ⟨⟨0, [("p", 0)]⟩, ⟨0, [("p", 1)]⟩, rfl, rfl, rfl, rfl, rfl, rfl⟩

/-- C84 does not hold for a manager made later: to a selector made before, the manager is there but everything in it is a
`KeyError`; for every state without a manager of that name, whatever is loaded. -/
theorem C84_new_violated (before : List (SelOp V)) (s : Selr) (hs : (SelWorld.start.after before).selector = .ok s) (m : String)
    (hm : AList.get? (SelWorld.start.after before).active m = none) (classNames : List String) (general : Reg V)
    (specific : String → Reg V) :
    let k := (SelWorld.start.after before).managers.length
    let now := (SelWorld.start.after before).after [.make m classNames, .load k general specific]
    ∃ fresh, now.selector = .ok fresh ∧ ∀ (q : List String) (path : String), (SectionPath.mk path).sections = m :: q →
      now.contains s path = (if q = [] then .ok true else .error .keyError) ∧
      now.contains fresh path = selContains [(m, ⟨classNames.map (fun n => (n, specific n)), general⟩)] path := by
  intro k now
  have hw := sound_after before (sound_start (V := V))
  have hnow : now = { (SelWorld.start.after before) with
      managers := (SelWorld.start.after before).managers ++ [⟨m, classNames, some (SelWorld.start.after before).loads.length⟩],
      loads := (SelWorld.start.after before).loads ++ [⟨classNames.map (fun n => (n, specific n)), general⟩],
      active := AList.set (SelWorld.start.after before).active m k } := by
    show SelOp.apply (SelOp.apply (SelWorld.start.after before) (.make m classNames)) (.load k general specific) = _
    simp only [SelOp.apply]
    rw [List.getElem?_concat_length]
    simp only
    rw [List.set_append_right _ _ (Nat.le_refl _), Nat.sub_self]
    rfl
  have hsel : ∃ fresh, now.selector = .ok fresh := by
    have hall : ∀ (l : List (String × Nat)), (∀ e ∈ l, (now.managers[e.2]?).bind ManagerObj.loaded ≠ none) →
        ∃ entries, now.loadStructure l = .ok entries := by
      intro l
      induction l with
      | nil => exact fun _ => ⟨[], rfl⟩
      | cons e l ih =>
        intro hl
        obtain ⟨entries, he⟩ := ih (fun e' he' => hl e' (by simp [he']))
        obtain ⟨name, j⟩ := e
        have hj := hl (name, j) (by simp)
        rw [SelWorld.loadStructure]
        cases hn : (now.managers[j]?).bind ManagerObj.loaded with
        | none => exact absurd hn hj
        | some n =>
          simp only
          rw [he]
          exact ⟨_, rfl⟩
    have hold : ∀ (l : List (String × Nat)) (entries : List (String × Nat)),
        (SelWorld.start.after before).loadStructure l = .ok entries →
        ∀ e ∈ l, (((SelWorld.start.after before).managers)[e.2]?).bind ManagerObj.loaded ≠ none := by
      intro l
      induction l with
      | nil => exact fun _ _ e he => absurd he (by simp)
      | cons e l ih =>
        intro entries he e' he'
        obtain ⟨name, j⟩ := e
        rw [SelWorld.loadStructure] at he
        split at he
        · cases he
        · next n hn =>
          split at he
          · cases he
          · next others ho =>
            rcases List.mem_cons.1 he' with rfl | he'
            · simp only
              rw [hn]
              simp
            · exact ih others ho e' he'
    have hactive : ∀ e ∈ now.active, (now.managers[e.2]?).bind ManagerObj.loaded ≠ none := by
      intro e he
      rw [hnow] at he ⊢
      simp only at he ⊢
      have hfresh : AList.set (SelWorld.start.after before).active m k = (SelWorld.start.after before).active ++ [(m, k)] :=
        AList.set_fresh ((AList.get?_eq_none_iff _ _).1 hm)
      rw [hfresh] at he
      rcases List.mem_append.1 he with he | he
      · unfold SelWorld.selector at hs
        split at hs
        · cases hs
        · next entries hen =>
          have := hold _ entries hen e he
          cases hk : ((SelWorld.start.after before).managers)[e.2]? with
          | none =>
            rw [hk] at this
            exact absurd rfl this
          | some mgr =>
            rw [hk] at this
            rw [List.getElem?_append_left (List.getElem?_eq_some_iff.1 hk).1, hk]
            exact this
      · rw [List.mem_singleton] at he
        subst he
        simp only
        rw [List.getElem?_concat_length]
        simp
    obtain ⟨entries, he⟩ := hall _ hactive
    exact ⟨_, by unfold SelWorld.selector; rw [he]⟩
  obtain ⟨fresh, hf⟩ := hsel
  refine ⟨fresh, hf, fun q path hp => ⟨?_, ?_⟩⟩
  · obtain ⟨hd, h⟩ := selector_get hs m
    have hstr : AList.get? s.structure_ m = none := by
      rcases h with ⟨_, h⟩ | ⟨k', _, _, h, _⟩
      · exact h
      · rw [hm] at h
        cases h
    have hin : ∀ x, now.inStructure s m x = .error .keyError := by
      intro x
      unfold SelWorld.inStructure
      rw [hstr]
      rfl
    unfold SelWorld.contains
    rw [hp]
    unfold SelWorld.collectionFor
    simp only
    have hd' : now.dictAt s.dict = now.active := by
      have : s.dict = now.past.length := by rw [hnow]; exact hd
      rw [this, dictAt_active]
    have hk : AList.get? now.active m = some k := by
      rw [hnow]
      simp only
      rw [AList.get?_set, if_pos rfl]
    have hmg : now.managers[k]? = some ⟨m, classNames, some (SelWorld.start.after before).loads.length⟩ := by
      rw [hnow]
      exact List.getElem?_concat_length
    rw [hd', hk]
    simp only [Option.bind_some, hmg]
    cases q with
    | nil => rfl
    | cons x q =>
      simp only [hin]
      by_cases hx : x ∈ classNames
      · rw [if_pos hx]
        simp
      · rw [if_neg hx]
        simp
  · have hr : CollectionsNow now m k ⟨classNames.map (fun n => (n, specific n)), general⟩ := by
      rw [hnow]
      refine ⟨?_, ⟨m, classNames, some (SelWorld.start.after before).loads.length⟩, _, List.getElem?_concat_length, rfl,
        List.getElem?_concat_length⟩
      simp only
      rw [AList.get?_set, if_pos rfl]
    have e : now = SelWorld.start.after (before ++ [.make m classNames, .load k general specific]) := (after_append _ _ _).symm
    rw [e] at hf hr ⊢
    exact C84_now _ fresh hf m k _ hr q path hp

/-- A selector can be made unless one of the active managers has not been loaded; then it is an `AttributeError`. -/
theorem C84_unloaded_error (w : SelWorld V) (e : PyErr) :
    w.selector = .error e ↔ e = .attributeError ∧ ∃ m ∈ w.active, (w.managers[m.2]?).bind ManagerObj.loaded = none := by
  have key : ∀ l : List (String × Nat), w.loadStructure l = .error e ↔
      e = .attributeError ∧ ∃ m ∈ l, (w.managers[m.2]?).bind ManagerObj.loaded = none := by
    intro l
    induction l with
    | nil => simp [SelWorld.loadStructure]
    | cons m l ih =>
      obtain ⟨name, k⟩ := m
      rw [SelWorld.loadStructure]
      cases hk : (w.managers[k]?).bind ManagerObj.loaded with
      | none => exact ⟨fun h => by cases h; exact ⟨rfl, _, List.mem_cons_self, hk⟩, fun h => by rw [h.1]⟩
      | some n =>
        have hmem : (∃ m ∈ (name, k) :: l, (w.managers[m.2]?).bind ManagerObj.loaded = none) ↔
            ∃ m ∈ l, (w.managers[m.2]?).bind ManagerObj.loaded = none := by
          constructor
          · rintro ⟨m, hm, h⟩
            rcases List.mem_cons.1 hm with rfl | hm
            · rw [hk] at h; cases h
            · exact ⟨m, hm, h⟩
          · exact fun ⟨m, hm, h⟩ => ⟨m, List.mem_cons_of_mem _ hm, h⟩
        rw [hmem, ← ih]
        cases hh : w.loadStructure l with
        | error e' => exact ⟨fun h => by injection h with h; rw [h], fun h => by injection h with h; rw [h]⟩
        | ok others => exact ⟨(fun h => by cases h), (fun h => by cases h)⟩
  rw [← key]
  unfold SelWorld.selector
  cases w.loadStructure w.active with
  | error e' => exact ⟨fun h => by injection h with h; rw [h], fun h => by injection h with h; rw [h]⟩
  | ok entries => exact ⟨(fun h => by cases h), (fun h => by cases h)⟩

example : ((SelWorld.start : SelWorld Nat).after [.make "m" []]).selector = .error .attributeError := rfl

/-- C84 does not hold after a reset of the context: a selector made before answers everything as before, to one made now
every path is a `KeyError`. -/
theorem C84_reset_violated (w : SelWorld V) (s : Selr) (hs : w.selector = .ok s) :
    ∃ fresh, (w.after [.reset]).selector = .ok fresh ∧ ∀ (path : String),
      (w.after [.reset]).contains s path = w.contains s path ∧
      (w.after [.reset]).contains fresh path = .error .keyError := by
  refine ⟨⟨(w.past ++ [w.active]).length, []⟩, rfl, fun path => ⟨?_, ?_⟩⟩
  · apply contains_congr
    cases hsec : (SectionPath.mk path).sections with
    | nil => rfl
    | cons m q =>
      obtain ⟨hd, _⟩ := selector_get hs m
      have e : (w.after [.reset]).dictAt s.dict = w.dictAt s.dict := by
        rw [hd, dictAt_active]
        show (if w.past.length = (w.past ++ [w.active]).length then ([] : List (String × Nat)) else
          ((w.past ++ [w.active])[w.past.length]?).getD []) = w.active
        rw [if_neg (by simp), List.getElem?_concat_length]
        rfl
      have e' : (w.after [.reset]).managers = w.managers := rfl
      exact collectionFor_congr (by rw [e, e']) (fun _ => rfl)
  · have hne := SectionPath.sections_ne_nil (SectionPath.mk path)
    unfold SelWorld.contains
    cases hsec : (SectionPath.mk path).sections with
    | nil => exact absurd hsec hne
    | cons m q =>
      unfold SelWorld.collectionFor
      have e : (w.after [.reset]).dictAt (w.past ++ [w.active]).length = [] := dictAt_active (w.after [.reset])
      rw [e]
      rfl

/-- The hypotheses of `C84_same_partial` can be met, and the created item is found. -/
example (c : Callable Nat) :
    let before : SelWorld Nat := SelWorld.start.after [.make "p" [], .load 0 (.coll false []) (fun _ => .other)]
    let ops : List (SelOp Nat) := [.create 0 none ["sec"] ("f", .item c), .make "q" []]
    before.selector = .ok ⟨0, [("p", 0)]⟩ ∧ (∀ op ∈ ops, LeavesAlone "p" (AList.get? before.active "p") op) ∧
      (before.after ops).contains ⟨0, [("p", 0)]⟩ "p.sec.f" = .ok true := by
  refine ⟨rfl, ?_, rfl⟩
  intro op hop
  simp only [List.mem_cons, List.not_mem_nil, or_false] at hop
  rcases hop with rfl | rfl
  · trivial
  · show "q" ≠ "p"
    decide

end Verif.Props
