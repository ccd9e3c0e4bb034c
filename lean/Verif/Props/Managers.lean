import Verif.Model.Managers
import Verif.Lemmas.SectionPath

/-
Property theorems about finding managers by name and by file: C47, C48.
-/

namespace Verif.Props
open Verif.Py Verif.Model

/-! ### Specification of C47 -/

/-- The operation makes a manager object. -/
def RegOp.isCreate : RegOp → Bool
  | .create _ _ _ => true
  | _ => false

/-- The operation makes a manager with this name and comes as far as registering it. -/
def RegOp.registers (name : String) : RegOp → Prop
  | .create n _ c => n = name ∧ (c = .unfinished ∨ c = .done)
  | _ => False

/-- Manager `m` was the last one registered under the name, and has neither been destroyed nor forgotten since. -/
def LatestLive (h : List RegOp) (name : String) (m : Manager) : Prop :=
  ∃ h1 c h2, h = h1 ++ .create name m.folder c :: h2 ∧ (c = .unfinished ∨ c = .done) ∧
    m.id = (h1.filter RegOp.isCreate).length ∧
    ∀ o ∈ h2, ¬ RegOp.registers name o ∧ o ≠ .reset ∧ o ≠ .destroy m.id

/-! ### Lemmas -/

theorem alist_get?_del {V : Type} (d : List (String × V)) (k k' : String) :
    AList.get? (AList.del d k) k' = if k' = k then none else AList.get? d k' := by
  induction d with
  | nil => simp [AList.del, AList.get?]
  | cons e d ih =>
    obtain ⟨a, b⟩ := e
    unfold AList.del at *
    by_cases hak : a = k
    · subst hak
      simp only [List.filter_cons, ne_eq, not_true_eq_false, decide_false]
      rw [if_neg (by simp), ih]
      by_cases h : k' = a
      · simp [h]
      · have h' : ¬ a = k' := fun e => h e.symm
        simp [AList.get?, h, h']
    · simp only [List.filter_cons, ne_eq, hak, not_false_eq_true, decide_true, if_true, AList.get?]
      by_cases h : a = k'
      · subst h; simp [hak]
      · simp only [h, if_false]
        exact ih

/-- What is known about the state after every history. -/
structure RegOK (h : List RegOp) (s : Registered) : Prop where
  count : s.names.length = (h.filter RegOp.isCreate).length
  named : ∀ name m, AList.get? s.active name = some m → s.names[m.id]? = some (some name)
  latest : ∀ name m, AList.get? s.active name = some m ↔ LatestLive h name m

theorem latest_snoc (h : List RegOp) (o : RegOp) (name : String) (m : Manager) :
    LatestLive (h ++ [o]) name m ↔
      (∃ c, o = .create name m.folder c ∧ (c = .unfinished ∨ c = .done) ∧ m.id = (h.filter RegOp.isCreate).length) ∨
      (LatestLive h name m ∧ ¬ RegOp.registers name o ∧ o ≠ .reset ∧ o ≠ .destroy m.id) := by
  constructor
  · rintro ⟨h1, c, h2, he, hc, hid, hl⟩
    rcases List.eq_nil_or_concat h2 with rfl | ⟨h3, o', h6⟩
    · have := List.append_inj' he (by simp)
      obtain ⟨rfl, h5⟩ := this
      simp at h5
      exact Or.inl ⟨c, h5, hc, hid⟩
    · rw [List.concat_eq_append] at h6
      subst h6
      rw [← List.cons_append, ← List.append_assoc] at he
      have := List.append_inj' he (by simp)
      obtain ⟨rfl, h5⟩ := this
      simp at h5
      subst h5
      exact Or.inr ⟨⟨h1, c, h3, rfl, hc, hid, fun o ho => hl o (by simp [ho])⟩, hl o (by simp)⟩
  · rintro (⟨c, rfl, hc, hid⟩ | ⟨⟨h1, c, h2, rfl, hc, hid, hl⟩, ho⟩)
    · exact ⟨h, c, [], rfl, hc, hid, by simp⟩
    · refine ⟨h1, c, h2 ++ [o], by simp, hc, hid, ?_⟩
      intro o' ho'
      rcases List.mem_append.1 ho' with h | h
      · exact hl o' h
      · simp at h
        subst h
        exact ho

theorem RegOK.step {h : List RegOp} {s : Registered} (hs : RegOK h s) (o : RegOp) : RegOK (h ++ [o]) (o.apply s) := by
  have named_append : ∀ (x : Option String) (name : String) (m : Manager), AList.get? s.active name = some m →
      (s.names ++ [x])[m.id]? = some (some name) := by
    intro x name m hm
    have := hs.named name m hm
    rw [List.getElem?_append_left]
    · exact this
    · exact (List.getElem?_eq_some_iff.1 this).1
  cases o with
  | create n f c =>
    have register : (c = .unfinished ∨ c = .done) → RegOK (h ++ [.create n f c])
        ⟨AList.set s.active n ⟨s.names.length, f⟩, s.names ++ [some n]⟩ := by
      intro hc
      refine ⟨by simp [hs.count, List.filter_cons, RegOp.isCreate], ?_, ?_⟩
      · intro name m hm
        simp only [AList.get?_set] at hm
        split at hm
        · next hn =>
          cases hm
          simp [hn]
        · exact named_append _ name m hm
      · intro name m
        rw [latest_snoc]
        simp only [AList.get?_set]
        by_cases hn : n = name
        · subst hn
          simp only [if_true, Option.some.injEq]
          constructor
          · rintro rfl
            exact Or.inl ⟨c, rfl, hc, hs.count⟩
          · rintro (⟨c', he, _, hid⟩ | ⟨_, hr, _⟩)
            · cases he
              rw [← hs.count] at hid
              cases m
              simp_all
            · exact absurd ⟨rfl, hc⟩ hr
        · rw [if_neg hn, hs.latest]
          constructor
          · intro hl
            exact Or.inr ⟨hl, fun hr => hn hr.1, by simp, by simp⟩
          · rintro (⟨c', he, _⟩ | ⟨hl, _⟩)
            · cases he
              exact absurd rfl hn
            · exact hl
    have skip : ¬ (c = .unfinished ∨ c = .done) → ∀ x, RegOK (h ++ [.create n f c]) ⟨s.active, s.names ++ [x]⟩ := by
      intro hc x
      refine ⟨by simp [hs.count, List.filter_cons, RegOp.isCreate], fun name m hm => named_append x name m hm, ?_⟩
      intro name m
      rw [latest_snoc, hs.latest]
      constructor
      · intro hl
        exact Or.inr ⟨hl, fun hr => hc hr.2, by simp, by simp⟩
      · rintro (⟨c', he, hc', _⟩ | ⟨hl, _⟩)
        · cases he
          exact absurd hc' hc
        · exact hl
    cases c with
    | early => exact skip (by simp) none
    | invalid => exact skip (by simp) (some n)
    | unfinished => exact register (by simp)
    | done => exact register (by simp)
  | destroy id =>
    -- nothing changes
    have same : (∀ name m, AList.get? s.active name = some m → m.id ≠ id) → RegOK (h ++ [.destroy id]) s := by
      intro hne
      refine ⟨by simp [hs.count, List.filter_cons, RegOp.isCreate], hs.named, ?_⟩
      intro name m
      rw [latest_snoc, ← hs.latest]
      constructor
      · intro hm
        exact Or.inr ⟨hm, fun h => h, by simp, by intro he; cases he; exact hne name m hm rfl⟩
      · rintro (⟨c', he, _⟩ | ⟨hl, _⟩)
        · cases he
        · exact hl
    rw [RegOp.apply]
    split
    · next name hname =>
      split
      · next hnone =>
        apply same
        rintro name' m hm rfl
        rw [hs.named name' m hm] at hname
        cases hname
        rw [hm] at hnone
        cases hnone
      · next m hm =>
        split
        · next hid =>
          refine ⟨by simp [hs.count, List.filter_cons, RegOp.isCreate], ?_, ?_⟩
          · intro name' m' hm'
            simp only [alist_get?_del] at hm'
            split at hm'
            · cases hm'
            · exact hs.named name' m' hm'
          · intro name' m'
            rw [latest_snoc, ← hs.latest]
            simp only [alist_get?_del]
            constructor
            · intro hm'
              split at hm'
              · cases hm'
              · next hne =>
                refine Or.inr ⟨hm', fun h => h, by simp, ?_⟩
                intro he
                cases he
                have := hs.named name' m' hm'
                rw [hname] at this
                cases this
                exact hne rfl
            · rintro (⟨c', he, _⟩ | ⟨hl, _, _, hd⟩)
              · cases he
              · rw [if_neg]
                · exact hl
                · rintro rfl
                  rw [hm] at hl
                  cases hl
                  exact hd (by rw [hid])
        · next hid =>
          apply same
          rintro name' m' hm' rfl
          rw [hs.named name' m' hm'] at hname
          cases hname
          rw [hm] at hm'
          cases hm'
          exact hid rfl
    · next hname =>
      apply same
      rintro name' m' hm' rfl
      exact hname name' (hs.named name' m' hm')
  | reset =>
    refine ⟨by simp [RegOp.apply, hs.count, RegOp.isCreate], fun _ _ hm => by simp [RegOp.apply, AList.get?] at hm, ?_⟩
    intro name m
    rw [latest_snoc]
    simp [RegOp.apply, AList.get?]

theorem foldl_snoc_reg (h : List RegOp) (o : RegOp) : registeredAfter (h ++ [o]) = o.apply (registeredAfter h) := by
  simp [registeredAfter]

theorem regOK (h : List RegOp) : RegOK h (registeredAfter h) := by
  have : ∀ (r : List RegOp), RegOK r.reverse (registeredAfter r.reverse) := by
    intro r
    induction r with
    | nil =>
      refine ⟨rfl, fun _ _ hm => by simp [registeredAfter, AList.get?] at hm, ?_⟩
      intro name m
      simp only [List.reverse_nil, registeredAfter, List.foldl_nil, AList.get?]
      constructor
      · intro h; cases h
      · rintro ⟨h1, c, h2, he, _⟩
        simp at he
    | cons o r ih =>
      rw [List.reverse_cons, foldl_snoc_reg]
      exact ih.step o
  have := this h.reverse
  rwa [List.reverse_reverse] at this

/-! ## C47 -/

/-- The manager found under a name is the one registered last under it, unless it was destroyed or the context was reset
since; for every history. -/
theorem C47_latest (h : List RegOp) (name : String) (m : Manager) :
    AList.get? (registeredAfter h).active name = some m ↔ LatestLive h name m := (regOK h).latest name m

/-- Looking up by section path: the manager named by the first section. -/
theorem C47_path (h : List RegOp) (name rest : String) (hn : hasChar '.' name = false) (m : Manager) :
    (managerOfPath (registeredAfter h) name = .ok m ↔ LatestLive h name m) ∧
    (managerOfPath (registeredAfter h) (name ++ "." ++ rest) = .ok m ↔ LatestLive h name m) := by
  have h1 : split '.' name = [name] := by
    have := split_join '.' (xs := [name]) (by simp) (by simpa using hn)
    simpa [join, joinL] using this
  have h2 : ∃ r, split '.' (name ++ "." ++ rest) = name :: r := by
    refine ⟨split '.' rest, ?_⟩
    have : name ++ "." ++ rest = join '.' (name :: split '.' rest) := by
      rw [← String.toList_inj, join]
      simp only [String.toList_append, String.toList_ofList, List.map_cons]
      rw [joinL_cons_of_ne_nil _ _ (by simpa using split_ne_nil _ _)]
      have := congrArg String.toList (join_split '.' rest)
      rw [join, String.toList_ofList] at this
      rw [this]
      simp
    rw [this, split_join '.' (by simp)]
    intro x hx
    rcases List.mem_cons.1 hx with rfl | hx
    · exact hn
    · exact hasChar_of_mem_split _ _ x hx
  obtain ⟨r, h2⟩ := h2
  unfold managerOfPath SectionPath.sections
  constructor
  · rw [h1]
    simp only
    rw [← C47_latest]
    cases AList.get? (registeredAfter h).active name <;> simp
  · rw [h2]
    simp only
    rw [← C47_latest]
    cases AList.get? (registeredAfter h).active name <;> simp

/-- A lookup that fails raises one kind of exception, exactly if there is no manager. -/
theorem C47_missing (h : List RegOp) (name : String) (hn : hasChar '.' name = false) :
    managerOfPath (registeredAfter h) name = .error .noManager ↔ ∀ m, ¬ LatestLive h name m := by
  have hp := fun m => (C47_path h name "" hn m).1
  constructor
  · intro he m hm
    rw [(hp m).2 hm] at he
    cases he
  · intro hne
    cases hr : managerOfPath (registeredAfter h) name with
    | ok m => exact absurd ((hp m).1 hr) (hne m)
    | error e =>
      unfold managerOfPath at hr
      split at hr
      · next he => exact absurd he (split_ne_nil _ _)
      · split at hr
        · cases hr
        · exact hr.symm

/-- A construction that fails before it registers the manager, and destroying that manager later, changes no lookup. -/
theorem C47_failed (h1 h2 : List RegOp) (name folder : String) (c : Construction) (hc : c = .early ∨ c = .invalid)
    (s : Registered)
    (hs : s = registeredAfter (h1 ++ [.create name folder c] ++ h2)) :
    (RegOp.apply s (.destroy (h1.filter RegOp.isCreate).length)).active = s.active ∧
    (registeredAfter (h1 ++ [.create name folder c])).active = (registeredAfter h1).active := by
  constructor
  · have hok := regOK (h1 ++ [.create name folder c] ++ h2)
    rw [← hs] at hok
    have hne : ∀ name' m, AList.get? s.active name' = some m → m.id ≠ (h1.filter RegOp.isCreate).length := by
      intro name' m hm he
      obtain ⟨a, c', b, hab, hc', hid', _⟩ := (hok.latest name' m).1 hm
      rw [he] at hid'
      -- the creation with this number is the one that failed
      rw [List.append_assoc, List.singleton_append] at hab
      have hcount : ∀ (l r l' r' : List RegOp) (x y : RegOp), RegOp.isCreate x = true → RegOp.isCreate y = true →
          l ++ x :: r = l' ++ y :: r' → (l.filter RegOp.isCreate).length = (l'.filter RegOp.isCreate).length → x = y := by
        intro l
        induction l with
        | nil =>
          intro r l' r' x y hx hy he hl
          cases l' with
          | nil => simp at he; exact he.1
          | cons z l' =>
            simp at he
            rw [← he.1] at hl
            simp [hx] at hl
        | cons z l ih =>
          intro r l' r' x y hx hy he hl
          cases l' with
          | nil =>
            simp at he
            rw [he.1] at hl
            simp [hy] at hl
          | cons z' l' =>
            simp at he
            obtain ⟨rfl, he⟩ := he
            refine ih r l' r' x y hx hy he ?_
            by_cases hz : RegOp.isCreate z = true
            · simpa [hz] using hl
            · simpa [hz] using hl
      have := hcount _ _ _ _ _ _ rfl rfl hab hid'
      cases this
      rcases hc with rfl | rfl <;> simp at hc'
    rw [RegOp.apply]
    split
    · split
      · rfl
      · next m hm =>
        rw [if_neg (hne _ m hm)]
    · rfl
  · rw [foldl_snoc_reg]
    rcases hc with rfl | rfl <;> rfl

example : AList.get? (registeredAfter [.create "p" "/a" .done, .create "p" "/b" .done, .destroy 0,
    .create "p" "/c" .invalid, .destroy 2]).active "p" = some ⟨1, "/b"⟩ := by decide

/-- A manager whose construction fails while its project is created stays registered, in place of the working one. -/
theorem C47_unfinished_violated :
    managerOfPath (registeredAfter [.create "p" "/a" .done, .create "p" "/b" .unfinished]) "p" = .ok ⟨1, "/b"⟩ := by
  decide +kernel

/-- A manager with a dot in its name is never found by a path. -/
theorem C47_dot_violated (h : List RegOp) (name : String) (m : Manager) (hn : hasChar '.' name = true)
    (hm : managerOfPath (registeredAfter h) name = .ok m) : ¬ LatestLive h name m := by
  intro hl
  unfold managerOfPath at hm
  split at hm
  · cases hm
  · next n rest hs =>
    split at hm
    · next m' hm' =>
      cases hm
      have h1 := (regOK h).named n m hm'
      have h2 := (regOK h).named name m ((C47_latest h name m).2 hl)
      rw [h1] at h2
      cases h2
      have := hasChar_of_mem_split '.' name name (by
        unfold SectionPath.sections at hs
        simp only at hs
        rw [hs]
        simp)
      rw [this] at hn
      cases hn
    · cases hm

example : managerOfPath (registeredAfter [.create "my.project" "/a" .done]) "my.project.x" = .error .noManager ∧
    LatestLive [.create "my.project" "/a" .done] "my.project" ⟨0, "/a"⟩ :=
  ⟨by decide +kernel, (C47_latest _ _ _).1 (by decide)⟩

/-! ### Specification of C48 -/

/-- The path starts with exactly two slashes, which POSIX keeps apart. -/
def twoSlashes (p : String) : Prop := startsWith p "//" = true ∧ ¬ startsWith p "///" = true

/-- The file is below the folder: same root, and the components of the folder are the first components of the file. -/
def Below (cwd folder file : String) : Prop :=
  (twoSlashes (Path.full cwd file) ↔ twoSlashes (Path.full cwd folder)) ∧
  ∃ rest, rest ≠ [] ∧ Path.normComps (Path.full cwd file) = Path.normComps (Path.full cwd folder) ++ rest

/-! ### Lemmas -/

theorem join_append {xs ys : List String} (hx : xs ≠ []) (hy : ys ≠ []) :
    join '/' (xs ++ ys) = join '/' xs ++ "/" ++ join '/' ys := by
  rw [← String.toList_inj]
  simp only [join, String.toList_append, String.toList_ofList, List.map_append]
  rw [joinL_append _ (by simpa using hx) (by simpa using hy)]
  have : "/".toList = ['/'] := rfl
  simp [this]

theorem join_prefix {ds fs : List String} (hd : ds ≠ []) (hd' : ∀ x ∈ ds, hasChar '/' x = false)
    (hf' : ∀ x ∈ fs, hasChar '/' x = false) :
    startsWith (join '/' fs) (join '/' ds ++ "/") = true ↔ ∃ rest, rest ≠ [] ∧ fs = ds ++ rest := by
  rw [Path.startsWith_iff]
  constructor
  · rintro ⟨t, ht⟩
    cases fs with
    | nil =>
      exfalso
      have := congrArg String.toList ht
      simp [join, joinL] at this
    | cons f fs =>
      have h := congrArg (split '/') ht
      rw [split_join '/' (by simp) hf', split_append, split_join '/' hd hd'] at h
      exact ⟨_, split_ne_nil _ _, h⟩
  · rintro ⟨rest, hr, rfl⟩
    exact ⟨join '/' rest, join_append hd hr⟩

theorem join_first {fs : List String} (hf : ∀ x ∈ fs, x ≠ "" ∧ hasChar '/' x = false) :
    ∀ t, (join '/' fs).toList ≠ '/' :: t := by
  intro t h
  cases fs with
  | nil => simp [join, joinL] at h
  | cons f fs =>
    have h1 : join '/' (f :: fs) = "/" ++ String.ofList t := by
      rw [← String.toList_inj, h]; simp
    have h2 := congrArg (split '/') h1
    rw [split_join '/' (by simp) (fun x hx => (hf x hx).2)] at h2
    have h3 : split '/' ("/" ++ String.ofList t) = "" :: split '/' (String.ofList t) := by
      have := split_append "" (String.ofList t)
      simpa [split_slash_single] using this
    rw [h3] at h2
    simp at h2
    exact (hf f (by simp)).1 h2.1

open Classical in
theorem abspath_eq {cwd : String} (hcwd : Path.isAbs cwd = true) (p : String) :
    Path.abspath cwd p = (if twoSlashes (Path.full cwd p) then "//" else "/") ++ join '/' (Path.normComps (Path.full cwd p)) := by
  have habs := Path.isAbs_full hcwd p
  show Path.normpath (Path.full cwd p) = _
  unfold Path.normpath
  rw [if_neg (by intro h; rw [h] at habs; exact absurd habs (by decide))]
  simp only [habs, if_true]
  have hne : ∀ (b : Prop) [Decidable b], (if b then "//" else "/") ++ join '/' (Path.normComps (Path.full cwd p)) ≠ "" := by
    intro b _ h
    have := congrArg String.toList h
    simp only [String.toList_append] at this
    split at this <;> simp at this
  by_cases h : twoSlashes (Path.full cwd p)
  · have h' : startsWith (Path.full cwd p) "//" = true ∧ ¬ startsWith (Path.full cwd p) "///" = true := h
    rw [if_pos h, if_pos h', if_neg]
    have := hne True
    simpa using this
  · have h' : ¬ (startsWith (Path.full cwd p) "//" = true ∧ ¬ startsWith (Path.full cwd p) "///" = true) := h
    rw [if_neg h, if_neg h', if_neg]
    have := hne False
    simpa using this

/-- The test of the code, for folders other than the root. -/
theorem test_iff {cwd : String} (hcwd : Path.isAbs cwd = true) (folder file : String)
    (hroot : Path.normComps (Path.full cwd folder) ≠ []) :
    startsWith (Path.abspath cwd file) (Path.abspath cwd folder ++ "/") = true ↔ Below cwd folder file := by
  have hd := fun x (hx : x ∈ Path.normComps (Path.full cwd folder)) => Path.normComps_mem hx
  have hf := fun x (hx : x ∈ Path.normComps (Path.full cwd file)) => Path.normComps_mem hx
  have key := join_prefix hroot (fun x hx => (hd x hx).2) (fun x hx => (hf x hx).2)
  have ff := join_first hf
  have fd := join_first hd
  have dne : (join '/' (Path.normComps (Path.full cwd folder))).toList ≠ [] := by
    cases hc : Path.normComps (Path.full cwd folder) with
    | nil => exact absurd hc hroot
    | cons d ds =>
      intro h
      have h2 : join '/' (d :: ds) = "" := by rw [← String.toList_inj, h]; rfl
      have h3 := congrArg (split '/') h2
      rw [split_join '/' (by simp) (fun x hx => (hd x (hc ▸ hx)).2), split_slash_single] at h3
      simp at h3
      exact (hd d (by rw [hc]; simp)).1 h3.1
  unfold Below
  rw [abspath_eq hcwd, abspath_eq hcwd]
  simp only [startsWith, List.isPrefixOf_iff_prefix, String.toList_append] at key ⊢
  have s1 : "/".toList = ['/'] := rfl
  have s2 : "//".toList = ['/', '/'] := rfl
  by_cases h1 : twoSlashes (Path.full cwd file) <;> by_cases h2 : twoSlashes (Path.full cwd folder)
  · simp only [h1, h2, if_true, true_and, iff_true, s2, List.append_assoc, List.cons_append, List.nil_append,
      List.cons_prefix_cons, iff_self, s1]
    rw [s1] at key
    exact key
  · simp only [h1, h2, if_true, if_false, iff_false, not_true_eq_false, false_and, iff_false, s1, s2, List.append_assoc,
      List.cons_append, List.nil_append, List.cons_prefix_cons, true_and]
    rintro ⟨t, ht⟩
    cases hj : (join '/' (Path.normComps (Path.full cwd folder))).toList with
    | nil => exact dne hj
    | cons c cs =>
      rw [hj] at ht
      simp at ht
      exact fd cs (by rw [hj, ht.1])
  · simp only [h1, h2, if_true, if_false, false_iff, not_true_eq_false, false_and, iff_false, s1, s2, List.append_assoc,
      List.cons_append, List.nil_append, List.cons_prefix_cons, true_and]
    rintro ⟨t, ht⟩
    simp only [List.cons_append] at ht
    exact ff _ ht.symm
  · simp only [h1, h2, if_false, true_and, s1, List.append_assoc, List.cons_append, List.nil_append,
      List.cons_prefix_cons, iff_self]
    rw [s1] at key
    exact key

/-! ## C48 -/

/-- The manager found for a file is the first one whose folder the file is below; it fails iff there is none. -/
theorem C48_first (cwd : String) (hcwd : Path.isAbs cwd = true) (ms : List Manager) (file : String)
    (hroot : ∀ m ∈ ms, Path.normComps (Path.full cwd m.folder) ≠ []) :
    (∀ m, managerOfFile cwd ms file = .ok m ↔
      ∃ l r, ms = l ++ m :: r ∧ Below cwd m.folder file ∧ ∀ m' ∈ l, ¬ Below cwd m'.folder file) ∧
    (managerOfFile cwd ms file = .error .noManager ↔ ∀ m ∈ ms, ¬ Below cwd m.folder file) := by
  unfold managerOfFile
  induction ms with
  | nil => simp
  | cons a ms ih =>
    have ih := ih (fun m hm => hroot m (by simp [hm]))
    have ht := test_iff hcwd a.folder file (hroot a (by simp))
    rw [List.find?_cons]
    by_cases ha : Below cwd a.folder file
    · rw [ht.2 ha]
      constructor
      · intro m
        simp only [Except.ok.injEq]
        constructor
        · rintro rfl
          exact ⟨[], ms, rfl, ha, by simp⟩
        · rintro ⟨l, r, he, hb, hl⟩
          cases l with
          | nil => simp at he; exact he.1
          | cons x l =>
            simp at he
            exact absurd ha (he.1 ▸ hl x (by simp))
      · simp only [reduceCtorEq, false_iff]
        intro h
        exact h a (by simp) ha
    · have : startsWith (Path.abspath cwd file) (Path.abspath cwd a.folder ++ "/") = false := by
        rw [Bool.eq_false_iff]
        exact fun h => ha (ht.1 h)
      rw [this]
      simp only
      constructor
      · intro m
        rw [ih.1 m]
        constructor
        · rintro ⟨l, r, rfl, hb, hl⟩
          refine ⟨a :: l, r, rfl, hb, ?_⟩
          intro m' hm'
          rcases List.mem_cons.1 hm' with rfl | hm'
          · exact ha
          · exact hl m' hm'
        · rintro ⟨l, r, he, hb, hl⟩
          cases l with
          | nil =>
            simp at he
            exact absurd (he.1 ▸ hb) ha
          | cons x l =>
            simp at he
            exact ⟨l, r, he.2, hb, fun m' hm' => hl m' (by simp [hm'])⟩
      · rw [ih.2]
        simp [ha]

/-- If no folder of a manager is below that of another, and all are different, it is the only manager that has the file. -/
theorem C48_unique_partial (cwd : String) (hcwd : Path.isAbs cwd = true) (ms : List Manager) (file : String)
    (hroot : ∀ m ∈ ms, Path.normComps (Path.full cwd m.folder) ≠ [])
    (hnest : ∀ m ∈ ms, ∀ m' ∈ ms, m ≠ m' → ¬ Below cwd m.folder m'.folder ∧
      ¬ (Path.normComps (Path.full cwd m.folder) = Path.normComps (Path.full cwd m'.folder)))
    (m : Manager) : managerOfFile cwd ms file = .ok m ↔ m ∈ ms ∧ Below cwd m.folder file := by
  have hf := (C48_first cwd hcwd ms file hroot).1
  constructor
  · intro h
    obtain ⟨l, r, rfl, hb, _⟩ := (hf m).1 h
    exact ⟨by simp, hb⟩
  · rintro ⟨hm, hb⟩
    cases hr : managerOfFile cwd ms file with
    | error e =>
      have : managerOfFile cwd ms file = .error .noManager := by
        unfold managerOfFile at *
        split at hr
        · cases hr
        · next h => simp [h]
      exact absurd hb (((C48_first cwd hcwd ms file hroot).2.1 this) m hm)
    | ok m' =>
      obtain ⟨l, r, he, hb', _⟩ := (hf m').1 hr
      have hm' : m' ∈ ms := by rw [he]; simp
      by_cases hmm : m = m'
      · rw [hmm]
      · exfalso
        obtain ⟨hr1, rest, hrest, hc⟩ := hb
        obtain ⟨hr2, rest', hrest', hc'⟩ := hb'
        have h12 := hnest m hm m' hm' hmm
        have h21 := hnest m' hm' m hm (fun h => hmm h.symm)
        rw [hc] at hc'
        rcases List.append_eq_append_iff.1 hc' with ⟨as, h1, h2⟩ | ⟨as, h1, h2⟩
        · rcases as with _ | ⟨x, as⟩
          · exact h12.2 (by simpa using h1.symm)
          · exact h12.1 ⟨hr2.symm.trans hr1, _, by simp, h1⟩
        · rcases as with _ | ⟨x, as⟩
          · exact h12.2 (by simpa using h1)
          · exact h21.1 ⟨hr1.symm.trans hr2, _, by simp, h1⟩

/-- Folders that share the beginning of a name are not confused. -/
example : managerOfFile "/home" [⟨0, "/home/proj"⟩, ⟨1, "../home/./project/"⟩] "project/defaults/a.py" =
    .ok ⟨1, "../home/./project/"⟩ := by decide +kernel

/-- If folders nest, the manager registered first gets the file, not the one with the innermost folder. -/
theorem C48_innermost_violated :
    managerOfFile "/" [⟨0, "/home"⟩, ⟨1, "/home/project"⟩] "/home/project/defaults/a.py" = .ok ⟨0, "/home"⟩ := by
  decide +kernel

/-- A manager in the root folder gets no file. -/
theorem C48_root_violated (cwd : String) (hcwd : Path.isAbs cwd = true) (id : Nat) (file : String)
    (hf : ¬ twoSlashes (Path.full cwd file)) : managerOfFile cwd [⟨id, "/"⟩] file = .error .noManager := by
  have hd : Path.abspath cwd "/" = "/" := by
    unfold Path.abspath
    rw [if_pos (by decide)]
    decide +kernel
  have : startsWith (Path.abspath cwd file) (Path.abspath cwd "/" ++ "/") = false := by
    rw [Bool.eq_false_iff]
    intro h
    rw [hd, abspath_eq hcwd, if_neg hf] at h
    simp only [startsWith, List.isPrefixOf_iff_prefix, String.toList_append] at h
    have s1 : "/".toList = ['/'] := rfl
    rw [s1] at h
    obtain ⟨t, ht⟩ := h
    simp at ht
    exact join_first (fun x hx => Path.normComps_mem hx) _ ht.symm
  simp [managerOfFile, this]

end Verif.Props
