import Verif.Model.Managers

/-
Property theorems about the modules imported by loading: C46.
-/

namespace Verif.Props
open Verif.Py Verif.Model

/-! ### Specification -/

mutual
/-- No module is removed explicitly, and no manager is reloaded. -/
def ModOp.noRemoval : ModOp → Bool
  | .imp _ => true
  | .del _ => false
  | .fail _ => true
  | .attempt body => ModOp.noRemovals body
  | .load _ body => ModOp.noRemovals body
  | .reload _ _ => false
/-- No module is removed explicitly, and no manager is reloaded. -/
def ModOp.noRemovals : List ModOp → Bool
  | [] => true
  | o :: rest => ModOp.noRemoval o && ModOp.noRemovals rest
end

mutual
/-- Only imports and ordinary exceptions: what loading does by itself. -/
def ModOp.quiet : ModOp → Bool
  | .imp _ => true
  | .del _ => false
  | .fail e => decide (e ≠ .interrupt)
  | .attempt body => ModOp.quiets body
  | .load _ _ => false
  | .reload _ _ => false
/-- Only imports and ordinary exceptions. -/
def ModOp.quiets : List ModOp → Bool
  | [] => true
  | o :: rest => ModOp.quiet o && ModOp.quiets rest
end

/-- What is done with managers in a session: modules are imported, managers are loaded and reloaded, one at a time. -/
def ModOp.plain : ModOp → Bool
  | .load _ body => ModOp.quiets body
  | .reload _ body => ModOp.quiets body
  | o => ModOp.quiet o

/-- A session goes on after an exception. -/
def session (ops : List ModOp) (s : Mods) : Mods := ops.foldl (fun s o => (o.exec s).2) s

/-- A session starts with some modules and without managers. -/
def Mods.start (modules : List String) : Mods := ⟨modules, []⟩

/-- The operation loads manager `k`. -/
def ModOp.loads (k : Nat) : ModOp → Bool
  | .load k' _ => decide (k' = k)
  | .reload k' _ => decide (k' = k)
  | _ => false

/-! ### Lemmas -/

theorem nodup_filter' (p : String → Bool) {l : List String} (h : l.Nodup) : (l.filter p).Nodup := h.sublist List.filter_sublist

theorem alist_set_set {K V : Type} [DecidableEq K] (d : List (K × V)) (k : K) (v w : V) :
    AList.set (AList.set d k v) k w = AList.set d k w := by
  induction d with
  | nil => simp [AList.set]
  | cons e d ih =>
    obtain ⟨a, b⟩ := e
    by_cases h : a = k
    · simp [AList.set, h]
    · simp [AList.set, h, ih]

theorem popModules_run {ms : List String} (hms : ms.Nodup) (s : Mods) (h : ∀ m ∈ ms, m ∈ s.modules) :
    popModules ms s = (.ok (), { s with modules := s.modules.filter (fun m => decide (m ∉ ms)) }) := by
  induction ms generalizing s with
  | nil =>
    have : s.modules.filter (fun m => decide (m ∉ ([] : List String))) = s.modules := by simp
    rw [this]; rfl
  | cons m rest ih =>
    rw [List.nodup_cons] at hms
    rw [popModules, M.bind_run]
    simp only [M.get_run]
    rw [if_pos (h m (by simp)), M.bind_run]
    simp only [M.modify_run]
    rw [ih hms.2 _ (by
      intro x hx
      simp only [List.mem_filter, decide_eq_true_eq]
      exact ⟨h x (by simp [hx]), fun hxm => hms.1 (hxm ▸ hx)⟩)]
    simp only [List.filter_filter, Prod.mk.injEq, Mods.mk.injEq, true_and, and_true]
    apply List.filter_congr
    intro x _
    simp [Bool.and_comm]

theorem popModules_missing {ms : List String} (s : Mods) (h : ∃ m ∈ ms, m ∉ s.modules) :
    (popModules ms s).1 = .error .keyError ∧ (popModules ms s).2.loaded = s.loaded ∧
      ∀ m, m ∉ s.modules → m ∉ (popModules ms s).2.modules := by
  induction ms generalizing s with
  | nil => simp at h
  | cons m rest ih =>
    rw [popModules, M.bind_run]
    simp only [M.get_run]
    by_cases hm : m ∈ s.modules
    · rw [if_pos hm, M.bind_run]
      simp only [M.modify_run]
      obtain ⟨x, hx, hxs⟩ := h
      have hx' : x ∈ rest := by
        rcases List.mem_cons.1 hx with rfl | h
        · exact absurd hm hxs
        · exact h
      have := ih { s with modules := s.modules.filter (fun x => decide (x ≠ m)) }
        ⟨x, hx', by simp [hxs]⟩
      refine ⟨this.1, this.2.1, fun y hy => this.2.2 y (by simp [hy])⟩
    · rw [if_neg hm]
      exact ⟨rfl, rfl, fun _ h => h⟩

theorem popModules_sublist (ms : List String) (s : Mods) :
    (popModules ms s).2.modules.Sublist s.modules ∧ (popModules ms s).2.loaded = s.loaded := by
  induction ms generalizing s with
  | nil => exact ⟨List.Sublist.refl _, rfl⟩
  | cons m rest ih =>
    rw [popModules, M.bind_run]
    simp only [M.get_run]
    split
    · rw [M.bind_run]
      simp only [M.modify_run]
      have := ih { s with modules := s.modules.filter (fun x => decide (x ≠ m)) }
      exact ⟨this.1.trans List.filter_sublist, this.2⟩
    · exact ⟨List.Sublist.refl _, rfl⟩

theorem wipe_run (k : Nat) (s : Mods) :
    wipe k s = match AList.get? s.loaded k with
      | none => (.error .notLoaded, s)
      | some ms => popModules ms s := by
  unfold wipe
  rw [M.bind_run]
  simp only [M.get_run]
  cases AList.get? s.loaded k <;> rfl

theorem imported_spec (original now : List String) (m : String) :
    m ∈ importedModules original now ↔ m ∈ now ∧ m ∉ original := by
  simp [importedModules]

/-- What loading does. -/
theorem load_run (k : Nat) (body : LM Unit) (s : Mods) (hn : (body s).2.modules.Nodup) :
    loadManager k body s = match body s with
      | (.ok _, s1) => (.ok (), { s1 with loaded := AList.set s1.loaded k (importedModules s.modules s1.modules) })
      | (.error e, s1) =>
        if e = .interrupt then (.error e, s1)
        else (.error e, { modules := s1.modules.filter (fun m => decide (m ∈ s.modules)), loaded := AList.set s1.loaded k [] }) := by
  unfold loadManager
  rw [M.bind_run]
  simp only [M.get_run]
  rw [M.bind_run]
  unfold M.tryCatch
  cases hb : body s with
  | mk r s1 =>
    rw [hb] at hn
    cases r with
    | ok a => rfl
    | error e =>
      by_cases he : e = .interrupt
      · simp [he]
      · simp only [he, if_false]
        rw [M.bind_run]
        simp only [M.get_run]
        rw [M.bind_run]
        simp only [setLoaded, M.modify_run]
        rw [M.bind_run, wipe_run]
        simp only [AList.get?_set, if_true]
        have hp := popModules_run (ms := importedModules s.modules s1.modules) (nodup_filter' _ hn)
          ⟨s1.modules, AList.set s1.loaded k (importedModules s.modules s1.modules)⟩
          (by intro m hm; exact ((imported_spec _ _ _).1 hm).1)
        rw [hp]
        simp only
        rw [M.bind_run]
        simp only [M.modify_run, M.raise_run, alist_set_set, Prod.mk.injEq, Mods.mk.injEq, true_and, and_true]
        apply List.filter_congr
        intro x hx
        simp only [imported_spec]
        by_cases h : x ∈ s.modules <;> simp [h, hx]

theorem loadManager_nodup {k : Nat} {body : LM Unit} (hb : M.Keeps (fun s s' => s.modules.Nodup → s'.modules.Nodup) body) :
    M.Keeps (fun s s' => s.modules.Nodup → s'.modules.Nodup) (loadManager k body) := by
  intro s hs
  have h := hb s hs
  rw [load_run k body s h]
  cases hh : body s with
  | mk r s1 =>
    rw [hh] at h
    cases r with
    | ok a => exact h
    | error e =>
      simp only
      split
      · exact h
      · exact nodup_filter' _ h

theorem wipe_nodup (k : Nat) (s : Mods) (hs : s.modules.Nodup) : (wipe k s).2.modules.Nodup := by
  rw [wipe_run]
  split
  · exact hs
  · exact hs.sublist (popModules_sublist _ s).1

mutual
theorem exec_nodup : (o : ModOp) → M.Keeps (fun s s' => s.modules.Nodup → s'.modules.Nodup) o.exec
  | .imp m => by
    intro s hs
    rw [ModOp.exec, M.modify_run]
    dsimp only
    split
    · exact hs
    · next hm =>
      rw [List.nodup_append]
      refine ⟨hs, by simp, ?_⟩
      intro a ha b hb
      simp at hb
      subst hb
      exact fun hab => hm (hab ▸ ha)
  | .del m => fun s hs => nodup_filter' _ hs
  | .fail e => fun s hs => hs
  | .attempt body => by
    rw [ModOp.exec]
    exact M.Keeps.tryCatch (fun _ _ _ f g h => g (f h)) (execs_nodup body) (fun _ => M.Keeps.pure (fun _ h => h) _)
  | .load k body => by
    rw [ModOp.exec]
    exact loadManager_nodup (execs_nodup body)
  | .reload k body => by
    rw [ModOp.exec]
    unfold reloadManager
    exact M.Keeps.bind (fun _ _ _ f g h => g (f h)) (wipe_nodup k) (fun _ => loadManager_nodup (execs_nodup body))
theorem execs_nodup : (ops : List ModOp) → M.Keeps (fun s s' => s.modules.Nodup → s'.modules.Nodup) (ModOp.execs ops)
  | [] => fun _ h => h
  | o :: rest => by
    rw [ModOp.execs]
    exact M.Keeps.bind (fun _ _ _ f g h => g (f h)) (exec_nodup o) (fun _ => execs_nodup rest)
end

theorem filter_prefix {l l' : List String} (h : l <+: l') (hn : l'.Nodup) : l'.filter (fun m => decide (m ∈ l)) = l := by
  obtain ⟨t, rfl⟩ := h
  rw [List.filter_append]
  have h1 : l.filter (fun m => decide (m ∈ l)) = l := List.filter_eq_self.2 (by simp)
  have h2 : t.filter (fun m => decide (m ∈ l)) = [] := by
    rw [List.filter_eq_nil_iff]
    intro a ha
    simp only [decide_eq_true_eq]
    intro hal
    exact (List.nodup_append.1 hn).2.2 a hal a ha rfl
  rw [h1, h2, List.append_nil]

/-- Modules stay, and new ones come last. -/
def ModsGrow (s s' : Mods) : Prop := s.modules.Nodup → s.modules <+: s'.modules ∧ s'.modules.Nodup

theorem ModsGrow.refl (s : Mods) : ModsGrow s s := fun h => ⟨List.prefix_refl _, h⟩

theorem ModsGrow.trans (a b c : Mods) (h1 : ModsGrow a b) (h2 : ModsGrow b c) : ModsGrow a c :=
  fun h => ⟨(h1 h).1.trans (h2 (h1 h).2).1, (h2 (h1 h).2).2⟩

theorem load_grows {k : Nat} {body : LM Unit} (hb : M.Keeps ModsGrow body) : M.Keeps ModsGrow (loadManager k body) := by
  intro s hs
  have h := hb s hs
  rw [load_run k body s h.2]
  cases hh : body s with
  | mk r s1 =>
    rw [hh] at h
    cases r with
    | ok a => exact h
    | error e =>
      simp only
      split
      · exact h
      · rw [filter_prefix h.1 h.2]
        exact ⟨List.prefix_refl _, hs⟩

mutual
theorem exec_grows : (o : ModOp) → ModOp.noRemoval o = true → M.Keeps ModsGrow o.exec
  | .imp m => by
    intro _ s hs
    refine ⟨?_, exec_nodup (.imp m) s hs⟩
    rw [ModOp.exec, M.modify_run]
    dsimp only
    split
    · exact List.prefix_refl _
    · exact List.prefix_append _ _
  | .del m => by intro h; simp [ModOp.noRemoval] at h
  | .fail e => fun _ s => ModsGrow.refl s
  | .attempt body => by
    intro h
    rw [ModOp.noRemoval] at h
    rw [ModOp.exec]
    exact M.Keeps.tryCatch ModsGrow.trans (execs_grows body h) (fun _ => M.Keeps.pure ModsGrow.refl _)
  | .load k body => by
    intro h
    rw [ModOp.noRemoval] at h
    rw [ModOp.exec]
    exact load_grows (execs_grows body h)
  | .reload k body => by intro h; simp [ModOp.noRemoval] at h
theorem execs_grows : (ops : List ModOp) → ModOp.noRemovals ops = true → M.Keeps ModsGrow (ModOp.execs ops)
  | [] => fun _ s => ModsGrow.refl s
  | o :: rest => by
    intro h
    rw [ModOp.noRemovals, Bool.and_eq_true] at h
    rw [ModOp.execs]
    exact M.Keeps.bind ModsGrow.trans (exec_grows o h.1) (fun _ => execs_grows rest h.2)
end

mutual
theorem exec_loaded : (o : ModOp) → ModOp.quiet o = true →
    M.Keeps (fun s s' => s'.loaded = s.loaded) o.exec
  | .imp m => by
    intro _ s
    rw [ModOp.exec, M.modify_run]
    dsimp only
    split <;> rfl
  | .del m => by intro h; simp [ModOp.quiet] at h
  | .fail e => fun _ s => rfl
  | .attempt body => by
    intro h
    rw [ModOp.quiet] at h
    rw [ModOp.exec]
    exact M.Keeps.tryCatch (fun _ _ _ f g => g.trans f) (execs_loaded body h) (fun _ _ => rfl)
  | .load k body => by intro h; simp [ModOp.quiet] at h
  | .reload k body => by intro h; simp [ModOp.quiet] at h
theorem execs_loaded : (ops : List ModOp) → ModOp.quiets ops = true →
    M.Keeps (fun s s' => s'.loaded = s.loaded) (ModOp.execs ops)
  | [] => fun _ _ => rfl
  | o :: rest => by
    intro h
    rw [ModOp.quiets, Bool.and_eq_true] at h
    rw [ModOp.execs]
    exact M.Keeps.bind (fun _ _ _ f g => g.trans f) (exec_loaded o h.1) (fun _ => execs_loaded rest h.2)
end

mutual
theorem quiet_noRemoval : (o : ModOp) → ModOp.quiet o = true → ModOp.noRemoval o = true
  | .imp m, _ => rfl
  | .del m, h => by simp [ModOp.quiet] at h
  | .fail e, _ => rfl
  | .attempt body, h => by
    rw [ModOp.quiet] at h
    rw [ModOp.noRemoval]
    exact quiets_noRemovals body h
  | .load k body, h => by simp [ModOp.quiet] at h
  | .reload k body, h => by simp [ModOp.quiet] at h
theorem quiets_noRemovals : (ops : List ModOp) → ModOp.quiets ops = true → ModOp.noRemovals ops = true
  | [], _ => rfl
  | o :: rest, h => by
    rw [ModOp.quiets, Bool.and_eq_true] at h
    rw [ModOp.noRemovals, Bool.and_eq_true]
    exact ⟨quiet_noRemoval o h.1, quiets_noRemovals rest h.2⟩
end

mutual
theorem exec_ordinary : (o : ModOp) → ModOp.quiet o = true → ∀ s, (o.exec s).1 ≠ .error .interrupt
  | .imp m, _, s => by rw [ModOp.exec, M.modify_run]; exact fun h => by cases h
  | .del m, h, _ => by simp [ModOp.quiet] at h
  | .fail e, h, s => by
    simp only [ModOp.quiet, decide_eq_true_eq] at h
    rw [ModOp.exec, M.raise_run]
    exact fun he => h (by injection he)
  | .attempt body, h, s => by
    rw [ModOp.exec]
    unfold M.tryCatch
    cases ModOp.execs body s with
    | mk r s' => cases r <;> exact fun h => by cases h
  | .load k body, h, _ => by simp [ModOp.quiet] at h
  | .reload k body, h, _ => by simp [ModOp.quiet] at h
theorem execs_ordinary : (ops : List ModOp) → ModOp.quiets ops = true → ∀ s, (ModOp.execs ops s).1 ≠ .error .interrupt
  | [], _, _ => by rw [ModOp.execs]; exact fun h => by cases h
  | o :: rest, h, s => by
    rw [ModOp.quiets, Bool.and_eq_true] at h
    rw [ModOp.execs, M.bind_run]
    have h1 := exec_ordinary o h.1 s
    cases hh : o.exec s with
    | mk r s' =>
      rw [hh] at h1
      cases r with
      | ok a => exact execs_ordinary rest h.2 s'
      | error e => exact h1
end

/-! ## C46 -/

/-- A load that fails removes exactly the modules that were not there before; whatever was done while loading. -/
theorem C46_failed (k : Nat) (body : List ModOp) (s s' : Mods) (e : PyErr) (hs : s.modules.Nodup)
    (h : (ModOp.load k body).exec s = (.error e, s')) (he : e ≠ .interrupt) :
    (ModOp.execs body s).1 = .error e ∧
    s'.modules = (ModOp.execs body s).2.modules.filter (fun m => decide (m ∈ s.modules)) ∧
    AList.get? s'.loaded k = some [] := by
  rw [ModOp.exec, load_run k _ s (execs_nodup body s hs)] at h
  cases hh : ModOp.execs body s with
  | mk r s1 =>
    rw [hh] at h
    cases r with
    | ok a => simp at h
    | error e' =>
      simp only at h
      split at h
      · next hi =>
        cases h
        exact absurd hi he
      · cases h
        exact ⟨rfl, rfl, by simp [AList.get?_set]⟩

/-- If nothing is removed while loading, the modules are exactly as before a load that fails, also in their order. -/
theorem C46_failed_exact (k : Nat) (body : List ModOp) (s s' : Mods) (e : PyErr) (hs : s.modules.Nodup)
    (hb : ModOp.noRemovals body = true) (h : (ModOp.load k body).exec s = (.error e, s')) (he : e ≠ .interrupt) :
    s'.modules = s.modules := by
  have hg := execs_grows body hb s hs
  rw [(C46_failed k body s s' e hs h he).2.1, filter_prefix hg.1 hg.2]

example : ∃ s', (ModOp.load 0 [.imp "a", .imp "b", .load 1 [.imp "c"], .fail .valueError]).exec (Mods.start ["os", "a"]) =
    (.error .valueError, s') ∧ s'.modules = ["os", "a"] := ⟨_, rfl, by decide⟩

/-- A load that returns records exactly the new modules. -/
theorem C46_returned (k : Nat) (body : List ModOp) (s s' : Mods) (hs : s.modules.Nodup)
    (h : (ModOp.load k body).exec s = (.ok (), s')) :
    s'.modules = (ModOp.execs body s).2.modules ∧
    ∃ ms, AList.get? s'.loaded k = some ms ∧ ∀ m, m ∈ ms ↔ m ∈ s'.modules ∧ m ∉ s.modules := by
  rw [ModOp.exec, load_run k _ s (execs_nodup body s hs)] at h
  cases hh : ModOp.execs body s with
  | mk r s1 =>
    rw [hh] at h
    cases r with
    | ok a =>
      cases h
      exact ⟨rfl, _, by simp [AList.get?_set], fun m => imported_spec _ _ m⟩
    | error e' =>
      simp only at h
      split at h <;> cases h

/-- The invariant of sessions. -/
structure ModsOK (s : Mods) : Prop where
  nodup : s.modules.Nodup
  each : ∀ k ms, AList.get? s.loaded k = some ms → ms.Nodup ∧ ∀ m ∈ ms, m ∈ s.modules
  apart : ∀ k k' ms ms', k ≠ k' → AList.get? s.loaded k = some ms → AList.get? s.loaded k' = some ms' →
    ∀ m ∈ ms, m ∉ ms'

theorem ModsOK.load {k : Nat} {body : List ModOp} (hb : ModOp.quiets body = true) {s : Mods} (hs : s.modules.Nodup)
    (he : ∀ k' ms, k' ≠ k → AList.get? s.loaded k' = some ms → ms.Nodup ∧ ∀ m ∈ ms, m ∈ s.modules)
    (ha : ∀ k1 k2 ms ms', k1 ≠ k → k2 ≠ k → k1 ≠ k2 → AList.get? s.loaded k1 = some ms →
      AList.get? s.loaded k2 = some ms' → ∀ m ∈ ms, m ∉ ms') :
    ModsOK ((ModOp.load k body).exec s).2 := by
  have hg := execs_grows body (quiets_noRemovals body hb) s hs
  have hl := execs_loaded body hb s
  have ho := execs_ordinary body hb s
  rw [ModOp.exec, load_run k _ s hg.2]
  have key : ∀ (modules new : List String), modules.Nodup → (∀ m ∈ s.modules, m ∈ modules) → new.Nodup →
      (∀ m ∈ new, m ∈ modules ∧ m ∉ s.modules) → ModsOK ⟨modules, AList.set s.loaded k new⟩ := by
    intro modules new h1 h2 h3 h4
    refine ⟨h1, ?_, ?_⟩
    · intro k' ms hk'
      simp only [AList.get?_set] at hk'
      split at hk'
      · cases hk'
        exact ⟨h3, fun m hm => (h4 m hm).1⟩
      · next hne =>
        have := he k' ms (fun h => hne h.symm) hk'
        exact ⟨this.1, fun m hm => h2 m (this.2 m hm)⟩
    · intro k1 k2 ms ms' hne hk1 hk2 m hm hm'
      simp only [AList.get?_set] at hk1 hk2
      split at hk1
      · next h1 =>
        split at hk2
        · next h2 => exact hne (h1.symm.trans h2)
        · next h2 =>
          cases hk1
          exact (h4 m hm).2 ((he k2 ms' (fun h => h2 h.symm) hk2).2 m hm')
      · next h1 =>
        split at hk2
        · next h2 =>
          cases hk2
          exact (h4 m hm').2 ((he k1 ms (fun h => h1 h.symm) hk1).2 m hm)
        · next h2 =>
          exact ha k1 k2 ms ms' (fun h => h1 h.symm) (fun h => h2 h.symm) hne hk1 hk2 m hm hm'
  cases hh : ModOp.execs body s with
  | mk r s1 =>
    rw [hh] at hg hl ho
    simp only at hl
    cases r with
    | ok a =>
      simp only [hl]
      exact key _ _ hg.2 (fun m hm => hg.1.subset hm) (nodup_filter' _ hg.2) (fun m hm => (imported_spec _ _ _).1 hm)
    | error e =>
      simp only
      rw [if_neg (fun h => ho (by rw [h]))]
      simp only [hl, filter_prefix hg.1 hg.2]
      exact key _ _ hs (fun m hm => hm) (by simp) (by simp)

/-- The state after the modules of a manager have been removed. -/
def Mods.without (s : Mods) (ms : List String) : Mods :=
  { s with modules := s.modules.filter (fun m => decide (m ∉ ms)) }

/-- Reloading a manager is loading it after exactly the modules of its last load have been removed. -/
theorem C46_reload (k : Nat) (body : List ModOp) (s : Mods) (hs : ModsOK s) :
    (ModOp.reload k body).exec s = match AList.get? s.loaded k with
      | none => (.error .notLoaded, s)
      | some ms => (ModOp.load k body).exec (Mods.without s ms) := by
  rw [ModOp.exec, ModOp.exec]
  unfold reloadManager
  rw [M.bind_run, wipe_run]
  cases h : AList.get? s.loaded k with
  | none => rfl
  | some ms =>
    simp only
    rw [popModules_run (hs.each k ms h).1 s (hs.each k ms h).2]
    rfl

theorem ModsOK.step {o : ModOp} (ho : ModOp.plain o = true) {s : Mods} (hs : ModsOK s) : ModsOK (o.exec s).2 := by
  have quiet : ModOp.quiet o = true → ModsOK (o.exec s).2 := by
    intro h
    have hg := exec_grows o (quiet_noRemoval o h) s hs.nodup
    have hl := exec_loaded o h s
    refine ⟨hg.2, ?_, ?_⟩
    · intro k ms hk
      rw [hl] at hk
      exact ⟨(hs.each k ms hk).1, fun m hm => hg.1.subset ((hs.each k ms hk).2 m hm)⟩
    · rw [hl]
      exact hs.apart
  cases o with
  | imp m => exact quiet ho
  | del m => exact quiet ho
  | fail e => exact quiet ho
  | attempt body => exact quiet ho
  | load k body =>
    exact ModsOK.load ho hs.nodup (fun k' ms _ h => hs.each k' ms h) (fun k1 k2 ms ms' _ _ => hs.apart k1 k2 ms ms')
  | reload k body =>
    rw [C46_reload k body s hs]
    cases h : AList.get? s.loaded k with
    | none => exact hs
    | some ms =>
      refine ModsOK.load ho (nodup_filter' _ hs.nodup) ?_ (fun k1 k2 ms ms' _ _ => hs.apart k1 k2 ms ms')
      intro k' ms' hne hk'
      refine ⟨(hs.each k' ms' hk').1, fun m hm => ?_⟩
      simp only [Mods.without, List.mem_filter, decide_eq_true_eq]
      exact ⟨(hs.each k' ms' hk').2 m hm, fun hm' => hs.apart k' k ms' ms hne hk' h m hm hm'⟩

/-- The invariant holds throughout every session. -/
theorem C46_session (ops : List ModOp) (hops : ∀ o ∈ ops, ModOp.plain o = true) (s : Mods) (hs : ModsOK s) : ModsOK (session ops s) := by
  induction ops generalizing s with
  | nil => exact hs
  | cons o rest ih =>
    exact ih (fun o ho => hops o (by simp [ho])) _ (ModsOK.step (hops o (by simp)) hs)

theorem start_ok {modules : List String} (h : modules.Nodup) : ModsOK (Mods.start modules) :=
  ⟨h, fun _ _ h => by simp [Mods.start, AList.get?] at h, fun _ _ _ _ _ h => by simp [Mods.start, AList.get?] at h⟩

theorem loaded_frame {k : Nat} {o : ModOp} (ho : ModOp.plain o = true) (hk : ModOp.loads k o = false) {s : Mods} (hs : ModsOK s) :
    AList.get? (o.exec s).2.loaded k = AList.get? s.loaded k := by
  have load : ∀ (k' : Nat) (body : List ModOp) (s : Mods), ModOp.quiets body = true → k' ≠ k → s.modules.Nodup →
      AList.get? ((ModOp.load k' body).exec s).2.loaded k = AList.get? s.loaded k := by
    intro k' body s hb hne hs
    have hl := execs_loaded body hb s
    rw [ModOp.exec, load_run k' _ s (execs_nodup body s hs)]
    cases hh : ModOp.execs body s with
    | mk r s1 =>
      rw [hh] at hl
      simp only at hl
      cases r with
      | ok a => simp [AList.get?_set, hne, hl]
      | error e =>
        simp only
        split
        · rw [hl]
        · simp [AList.get?_set, hne, hl]
  cases o with
  | imp m => rw [exec_loaded _ ho]
  | del m => rw [exec_loaded _ ho]
  | fail e => rw [exec_loaded _ ho]
  | attempt body => rw [exec_loaded _ ho]
  | load k' body => exact load k' body s ho (by simpa [ModOp.loads] using hk) hs.nodup
  | reload k' body =>
    rw [C46_reload k' body s hs]
    cases h : AList.get? s.loaded k' with
    | none => rfl
    | some ms => exact load k' body (Mods.without s ms) ho (by simpa [ModOp.loads] using hk) (nodup_filter' _ hs.nodup)

theorem session_frame {k : Nat} (ops : List ModOp) (hops : ∀ o ∈ ops, ModOp.plain o = true ∧ ModOp.loads k o = false) (s : Mods)
    (hs : ModsOK s) : AList.get? (session ops s).loaded k = AList.get? s.loaded k := by
  induction ops generalizing s with
  | nil => rfl
  | cons o rest ih =>
    have ho := hops o (by simp)
    exact (ih (fun o ho => hops o (by simp [ho])) _ (ModsOK.step ho.1 hs)).trans (loaded_frame ho.1 ho.2 hs)

/-- In every session in which managers are loaded one at a time and without interrupts: a reload removes exactly the
modules that the last load of the manager imported, and then loads; it never fails because of a missing module. -/
theorem C46_reload_partial (modules : List String) (hm : modules.Nodup) (before after : List ModOp) (k : Nat)
    (body body' : List ModOp) (hbefore : ∀ o ∈ before, ModOp.plain o = true) (hb : ModOp.quiets body = true)
    (hafter : ∀ o ∈ after, ModOp.plain o = true ∧ ModOp.loads k o = false) (s0 s1 s2 : Mods)
    (h0 : s0 = session before (Mods.start modules)) (h1 : (ModOp.load k body).exec s0 = (.ok (), s1))
    (h2 : s2 = session after s1) :
    (ModOp.reload k body').exec s2 = (ModOp.load k body').exec
      { s2 with modules := s2.modules.filter (fun m => !(decide (m ∈ s1.modules) && decide (m ∉ s0.modules))) } := by
  have hs0 : ModsOK s0 := h0 ▸ C46_session before hbefore _ (start_ok hm)
  have hs1 : ModsOK s1 := by
    have := ModsOK.step (o := .load k body) hb hs0
    rwa [h1] at this
  have hs2 : ModsOK s2 := h2 ▸ C46_session after (fun o ho => (hafter o ho).1) _ hs1
  obtain ⟨_, ms, hms, hmem⟩ := C46_returned k body s0 s1 hs0.nodup h1
  rw [C46_reload k body' s2 hs2, h2, session_frame after hafter s1 hs1, hms]
  simp only [Mods.without]
  congr 2
  apply List.filter_congr
  intro m _
  rw [Bool.eq_iff_iff]
  simp [hmem]

example : session [.load 0 [.imp "a"], .load 1 [.imp "b"], .imp "c", .reload 0 [.imp "d", .imp "a"]] (Mods.start ["os"]) =
    ⟨["os", "b", "c", "d", "a"], [(0, ["d", "a"]), (1, ["b"])]⟩ := by decide +kernel

/-- A reload fails iff a module of the last load is missing; the list of modules stays, so it fails again. -/
theorem C46_stuck (k : Nat) (body : List ModOp) (s : Mods) (ms : List String) (h : AList.get? s.loaded k = some ms)
    (hm : ∃ m ∈ ms, m ∉ s.modules) :
    ((ModOp.reload k body).exec s).1 = .error .keyError ∧
    AList.get? ((ModOp.reload k body).exec s).2.loaded k = some ms ∧
    ∃ m ∈ ms, m ∉ ((ModOp.reload k body).exec s).2.modules := by
  have hp := popModules_missing s hm
  have : (ModOp.reload k body).exec s = (.error .keyError, (popModules ms s).2) := by
    rw [ModOp.exec]
    unfold reloadManager
    rw [M.bind_run, wipe_run, h]
    simp only
    cases hh : popModules ms s with
    | mk r s' =>
      rw [hh] at hp
      simp only at hp
      rw [hp.1]
  rw [this]
  obtain ⟨m, hm1, hm2⟩ := hm
  exact ⟨rfl, by rw [hp.2.1]; exact h, m, hm1, hp.2.2 m hm2⟩

/-- Any number of reloads. -/
def reloads (k : Nat) (bodies : List (List ModOp)) : List ModOp := bodies.map (ModOp.reload k)

theorem stuck_forever (k : Nat) (bodies : List (List ModOp)) (s : Mods) (ms : List String)
    (h : AList.get? s.loaded k = some ms) (hm : ∃ m ∈ ms, m ∉ s.modules) :
    AList.get? (session (reloads k bodies) s).loaded k = some ms ∧ ∃ m ∈ ms, m ∉ (session (reloads k bodies) s).modules := by
  induction bodies generalizing s with
  | nil => exact ⟨h, hm⟩
  | cons b bs ih =>
    have := C46_stuck k b s ms h hm
    exact ih _ this.2.1 this.2.2

/-- An interrupt while reloading leaves imported modules behind, and from then on every reload fails, whatever it would
load. -/
theorem C46_interrupt_violated (bodies : List (List ModOp)) (body : List ModOp) :
    let s := session [.load 0 [.imp "a", .imp "b"], .reload 0 [.imp "a", .fail .interrupt]] (Mods.start ["os"])
    s.modules = ["os", "a"] ∧ ((ModOp.reload 0 body).exec (session (reloads 0 bodies) s)).1 = .error .keyError := by
  refine ⟨by decide +kernel, ?_⟩
  have h := stuck_forever 0 bodies
    (session [.load 0 [.imp "a", .imp "b"], .reload 0 [.imp "a", .fail .interrupt]] (Mods.start ["os"]))
    ["a", "b"] (by decide +kernel) ⟨"b", by decide, by decide +kernel⟩
  exact (C46_stuck 0 body _ _ h.1 h.2).1

/-- A manager loaded while another one is loaded: both claim its modules, and after the outer one has been reloaded the
inner one cannot be. -/
theorem C46_nested_violated (body : List ModOp) :
    let s := session [.load 0 [.imp "a", .load 1 [.imp "b"]], .reload 0 []] (Mods.start ["os"])
    s.modules = ["os"] ∧ AList.get? s.loaded 1 = some ["b"] ∧ ((ModOp.reload 1 body).exec s).1 = .error .keyError := by
  refine ⟨by decide +kernel, by decide +kernel, ?_⟩
  exact (C46_stuck 1 body _ ["b"] (by decide +kernel) ⟨"b", by decide, by decide +kernel⟩).1

/-- A module that is removed by someone else makes the next reload fail. -/
theorem C46_deleted_violated (body : List ModOp) :
    ((ModOp.reload 0 body).exec (session [.load 0 [.imp "a"], .del "a"] (Mods.start []))).1 = .error .keyError :=
  (C46_stuck 0 body _ ["a"] (by decide +kernel) ⟨"a", by decide, by decide +kernel⟩).1

/-- A module that is imported only after loading, by something that was loaded, is not imported again on reload. -/
theorem C46_lazy_violated :
    (session [.load 0 [.imp "a"], .imp "a.lazy", .reload 0 []] (Mods.start [])).modules = ["a.lazy"] := by decide +kernel

end Verif.Props
