import Verif.Model.PluginRegistry
import Verif.Props.BatchHooks

/-
Property theorems about which plugins are registered: C108.
-/

namespace Verif.Props
open Verif.Py Verif.Model Verif.Model.Plm

/-! ## C108 -/

/-! ### Specification -/

/-- The plugins of a plugin manager, in the order in which they were registered. -/
def pluginsOf (s : Plm.State) : List Nat := s.named.map Prod.snd

/-- Those of some plugins whose implementation of the hook has this mark. -/
def marked (w : Plm.World) (m : Plm.Pos) (ps : List Nat) : List Nat := ps.filter (fun p => w p == some m)

/-- Entry points and `default_hooks` can be registered together. -/
structure EntriesOk (entries : List (String × Nat)) : Prop where
  names : (entries.map Prod.fst).Nodup
  plugins : (entries.map Prod.snd).Nodup
  noDefault : ∀ e ∈ entries, e.1 ≠ "pyfileconf.plugin.default_hooks" ∧ e.2 ≠ defaultHooks

/-- Nobody uses the name of `default_hooks` for something else, nor another name for `default_hooks`. -/
def OwnName (ops : List Plm.Op) : Prop :=
  ∀ name p, Plm.Op.register name p ∈ ops → (name = "pyfileconf.plugin.default_hooks" ↔ p = defaultHooks)

/-- Whether `default_hooks` is registered after operations, if it was before them. -/
def defaultThere : Bool → List Plm.Op → Bool
  | b, [] => b
  | b, .register _ p :: os => defaultThere (b || p == defaultHooks) os
  | b, .unregister name :: os => defaultThere (b && name != "pyfileconf.plugin.default_hooks") os
  | _, .removeDefaults :: os => defaultThere false os
  | _, .reset :: os => defaultThere true os

/-! ### Lemmas -/

namespace Plm

/-- The order in which implementations are kept. -/
def arranged (w : Plm.World) (ps : List Nat) : List Nat :=
  (marked w .last ps).reverse ++ (marked w .plain ps ++ marked w .first ps)

/-- What always holds. -/
structure Good (w : Plm.World) (s : Plm.State) : Prop where
  names : (s.named.map Prod.fst).Nodup
  plugins : (pluginsOf s).Nodup
  impls : s.impls = arranged w (pluginsOf s)

theorem marked_append (w : Plm.World) (m : Plm.Pos) (ps qs : List Nat) :
    marked w m (ps ++ qs) = marked w m ps ++ marked w m qs := by
  unfold marked; exact List.filter_append ..

theorem marked_first {w : Plm.World} {ps : List Nat} {p : Nat} (h : p ∈ marked w .first ps) : isFirst w p = true :=
  (List.mem_filter.1 h).2

theorem takeWhile_all {f : α → Bool} {xs ys : List α} (h : ∀ x ∈ xs, f x = true) :
    (xs ++ ys).takeWhile f = xs ++ ys.takeWhile f ∧ (xs ++ ys).dropWhile f = ys.dropWhile f := by
  induction xs with
  | nil => exact ⟨rfl, rfl⟩
  | cons x xs ih =>
    obtain ⟨a, b⟩ := ih (fun y hy => h y (List.mem_cons_of_mem _ hy))
    have hx := h x List.mem_cons_self
    constructor
    · rw [List.cons_append, List.takeWhile_cons, if_pos hx, a]; rfl
    · rw [List.cons_append, List.dropWhile_cons, if_pos hx, b]

theorem takeWhile_none {f : α → Bool} {xs : List α} (h : ∀ x ∈ xs, f x = false) :
    xs.takeWhile f = [] ∧ xs.dropWhile f = xs := by
  cases xs with
  | nil => exact ⟨rfl, rfl⟩
  | cons x xs =>
    have hx := h x List.mem_cons_self
    constructor
    · rw [List.takeWhile_cons, if_neg (by rw [hx]; exact Bool.false_ne_true)]
    · rw [List.dropWhile_cons, if_neg (by rw [hx]; exact Bool.false_ne_true)]

theorem isFirst_of {w : Plm.World} {p : Nat} {m : Plm.Pos} (hm : m ≠ .first) (h : (w p == some m) = true) :
    isFirst w p = false := by
  unfold isFirst
  rw [beq_iff_eq] at h
  rw [h]
  cases m with
  | first => exact absurd rfl hm
  | plain => rfl
  | last => rfl

theorem addImpl_arranged (w : Plm.World) (p : Nat) (ps : List Nat) :
    addImpl w p (arranged w ps) = arranged w (ps ++ [p]) := by
  unfold addImpl
  cases hw : w p with
  | none =>
    have : ∀ m, marked w m [p] = [] := by intro m; unfold marked; simp [hw]
    simp only [arranged, marked_append, this, List.append_nil]
  | some m =>
    cases m with
    | first =>
      have h1 : marked w .first [p] = [p] := by unfold marked; simp [hw]
      have h2 : marked w .plain [p] = [] := by unfold marked; simp [hw]
      have h3 : marked w .last [p] = [] := by unfold marked; simp [hw]
      simp only [arranged, marked_append, h1, h2, h3, List.append_nil, List.append_assoc]
    | last =>
      have h1 : marked w .first [p] = [] := by unfold marked; simp [hw]
      have h2 : marked w .plain [p] = [] := by unfold marked; simp [hw]
      have h3 : marked w .last [p] = [p] := by unfold marked; simp [hw]
      simp only [arranged, marked_append, h1, h2, h3, List.append_nil, List.reverse_append, List.reverse_cons, List.reverse_nil,
        List.nil_append, List.cons_append]
    | plain =>
      have h1 : marked w .first [p] = [] := by unfold marked; simp [hw]
      have h2 : marked w .plain [p] = [p] := by unfold marked; simp [hw]
      have h3 : marked w .last [p] = [] := by unfold marked; simp [hw]
      simp only [arranged, marked_append, h1, h2, h3, List.append_nil, List.reverse_append, List.append_assoc]
      have ha : ∀ x ∈ (marked w .first ps).reverse, isFirst w x = true := fun x hx => marked_first (List.mem_reverse.1 hx)
      have hb : ∀ x ∈ (marked w .plain ps).reverse ++ ((marked w .last ps).reverse).reverse, isFirst w x = false := by
        intro x hx
        rw [List.mem_append] at hx
        rcases hx with hx | hx
        · exact isFirst_of (by intro e; cases e) (List.mem_filter.1 (List.mem_reverse.1 hx)).2
        · exact isFirst_of (by intro e; cases e) (List.mem_filter.1 (List.mem_reverse.1 (List.mem_reverse.1 hx))).2
      rw [(takeWhile_all ha).1, (takeWhile_all ha).2, (takeWhile_none hb).1, (takeWhile_none hb).2]
      simp only [List.append_nil, List.reverse_append, List.reverse_reverse, List.append_assoc, List.cons_append, List.nil_append]

theorem good_new (w : Plm.World) : Good w Plm.State.new := ⟨List.nodup_nil, List.nodup_nil, rfl⟩

theorem register_run (w : Plm.World) (name : String) (p : Nat) (s : Plm.State) :
    (Plm.register w name p s = (.error .valueError, s) ∧ (name ∈ s.named.map Prod.fst ∨ p ∈ pluginsOf s)) ∨
    (Plm.register w name p s = (.ok (), ⟨s.named ++ [(name, p)], addImpl w p s.impls⟩) ∧
      name ∉ s.named.map Prod.fst ∧ p ∉ pluginsOf s) := by
  have h1 : s.named.any (fun x => x.1 == name) = true ↔ name ∈ s.named.map Prod.fst := by
    rw [List.any_eq_true, List.mem_map]
    constructor
    · rintro ⟨x, hx, e⟩; exact ⟨x, hx, beq_iff_eq.1 e⟩
    · rintro ⟨x, hx, e⟩; exact ⟨x, hx, beq_iff_eq.2 e⟩
  have h2 : s.named.any (fun x => x.2 == p) = true ↔ p ∈ pluginsOf s := by
    unfold pluginsOf
    rw [List.any_eq_true, List.mem_map]
    constructor
    · rintro ⟨x, hx, e⟩; exact ⟨x, hx, beq_iff_eq.1 e⟩
    · rintro ⟨x, hx, e⟩; exact ⟨x, hx, beq_iff_eq.2 e⟩
  unfold Plm.register
  by_cases h : (s.named.any (fun x => x.1 == name) || s.named.any (fun x => x.2 == p)) = true
  · left
    refine ⟨if_pos h, ?_⟩
    rw [Bool.or_eq_true, h1, h2] at h
    exact h
  · right
    refine ⟨if_neg h, ?_⟩
    rw [Bool.or_eq_true, h1, h2, not_or] at h
    exact h

theorem nodup_snoc {α : Type} {l : List α} {a : α} (h : l.Nodup) (ha : a ∉ l) : (l ++ [a]).Nodup := by
  rw [List.nodup_append]
  refine ⟨h, List.nodup_cons.2 ⟨List.not_mem_nil, List.nodup_nil⟩, ?_⟩
  intro x hx y hy e
  rw [List.mem_singleton.1 hy] at e
  exact ha (e ▸ hx)

theorem register_good {w : Plm.World} {name : String} {p : Nat} {s : Plm.State} (h : Good w s) :
    Good w (Plm.register w name p s).2 := by
  rcases register_run w name p s with ⟨e, _⟩ | ⟨e, h1, h2⟩
  · rw [e]; exact h
  · rw [e]
    refine ⟨?_, ?_, ?_⟩
    · rw [List.map_append]; exact nodup_snoc h.names h1
    · unfold pluginsOf; rw [List.map_append]; exact nodup_snoc h.plugins h2
    · dsimp only
      rw [h.impls, addImpl_arranged]
      unfold pluginsOf
      rw [List.map_append]
      rfl

theorem arranged_filter (w : Plm.World) (f : Nat → Bool) (ps : List Nat) :
    (arranged w ps).filter f = arranged w (ps.filter f) := by
  have h : ∀ m, (marked w m ps).filter f = marked w m (ps.filter f) := by
    intro m
    unfold marked
    rw [List.filter_filter, List.filter_filter]
    congr 1
    funext x
    exact Bool.and_comm ..
  unfold arranged
  rw [List.filter_append, List.filter_append, List.filter_reverse, h, h, h]

/-- Without the name is without the plugin. -/
theorem filter_named {l : List (String × Nat)} (hn : (l.map Prod.fst).Nodup) (hp : (l.map Prod.snd).Nodup) {x : String × Nat}
    (hx : x ∈ l) : l.filter (fun y => y.1 != x.1) = l.filter (fun y => y.2 != x.2) := by
  induction l with
  | nil => rfl
  | cons a l ih =>
    rw [List.map_cons, List.nodup_cons] at hn hp
    rcases List.mem_cons.1 hx with rfl | hx
    · have e1 : l.filter (fun y => y.1 != x.1) = l := List.filter_eq_self.2 (fun y hy => by
        rw [bne_iff_ne]; intro e; exact hn.1 (e ▸ List.mem_map_of_mem hy))
      have e2 : l.filter (fun y => y.2 != x.2) = l := List.filter_eq_self.2 (fun y hy => by
        rw [bne_iff_ne]; intro e; exact hp.1 (e ▸ List.mem_map_of_mem hy))
      rw [List.filter_cons, List.filter_cons, e1, e2, if_neg (by simp), if_neg (by simp)]
    · have c1 : (a.1 != x.1) = true := bne_iff_ne.2 (fun e => hn.1 (e ▸ List.mem_map_of_mem hx))
      have c2 : (a.2 != x.2) = true := bne_iff_ne.2 (fun e => hp.1 (e ▸ List.mem_map_of_mem hx))
      rw [List.filter_cons, List.filter_cons, if_pos c1, if_pos c2, ih hn.2 hp.2 hx]

theorem unregister_run {w : Plm.World} {s : Plm.State} (h : Good w s) (name : String) :
    (Plm.unregister name s = (.ok (), s) ∧ name ∉ s.named.map Prod.fst) ∨
    ∃ p, (name, p) ∈ s.named ∧ Plm.unregister name s =
      (.ok (), ⟨s.named.filter (fun y => y.2 != p), s.impls.filter (fun q => q != p)⟩) := by
  unfold Plm.unregister
  cases hf : s.named.find? (fun x => x.1 == name) with
  | none =>
    left
    refine ⟨rfl, ?_⟩
    intro hm
    obtain ⟨x, hx, e⟩ := List.mem_map.1 hm
    exact List.find?_eq_none.1 hf x hx (beq_iff_eq.2 e)
  | some x =>
    right
    have hx := List.mem_of_find?_eq_some hf
    have he0 := List.find?_some hf
    have he : x.1 = name := beq_iff_eq.1 he0
    subst he
    refine ⟨x.2, hx, ?_⟩
    dsimp only
    rw [filter_named h.names h.plugins hx]

theorem nodup_map_filter {α β : Type} {l : List α} {f : α → β} (p : α → Bool) (h : (l.map f).Nodup) : ((l.filter p).map f).Nodup :=
  List.Nodup.sublist (List.filter_sublist.map f) h

theorem pluginsOf_without (l : List (String × Nat)) (p : Nat) :
    (l.filter (fun y => y.2 != p)).map Prod.snd = (l.map Prod.snd).filter (fun q => q != p) := by
  rw [List.filter_map]; rfl

theorem unregister_good {w : Plm.World} {name : String} {s : Plm.State} (h : Good w s) : Good w (Plm.unregister name s).2 := by
  rcases unregister_run h name with ⟨e, _⟩ | ⟨p, _, e⟩
  · rw [e]; exact h
  · rw [e]
    refine ⟨nodup_map_filter _ h.names, nodup_map_filter _ h.plugins, ?_⟩
    dsimp only [pluginsOf]
    rw [h.impls, arranged_filter, pluginsOf_without]
    rfl

theorem loadEntries_good {w : Plm.World} (es : List (String × Nat)) {s : Plm.State} (h : Good w s) :
    Good w (Plm.loadEntries w es s).2 := by
  induction es generalizing s with
  | nil => exact h
  | cons e es ih =>
    unfold Plm.loadEntries
    rw [M.bind_ok (M.get_run s)]
    split
    · exact ih h
    · rw [M.bind_run]
      have hg := register_good (name := e.1) (p := e.2) h
      cases hr : Plm.register w e.1 e.2 s with
      | mk r s' =>
        rw [hr] at hg
        cases r with
        | ok _ => exact ih hg
        | error x => exact hg

theorem manager_good {w : Plm.World} {entries : List (String × Nat)} {s : Plm.State} (h : getPluginManager w entries = .ok s) :
    Good w s := by
  unfold getPluginManager at h
  have hl := loadEntries_good (w := w) entries (good_new w)
  rw [M.bind_run] at h
  cases hr : Plm.loadEntries w entries Plm.State.new with
  | mk r s1 =>
    rw [hr] at h hl
    cases r with
    | error x => cases h
    | ok u =>
      dsimp only at h
      have hg := register_good (name := defaultName) (p := defaultHooks) hl
      cases hr2 : Plm.register w defaultName defaultHooks s1 with
      | mk r2 s2 =>
        rw [hr2] at h hg
        cases r2 with
        | error x => cases h
        | ok u => injection h with h; exact h ▸ hg

theorem op_good {w : Plm.World} {entries : List (String × Nat)} (o : Plm.Op) {s : Plm.State} (h : Good w s) :
    Good w (o.run w entries s).2 := by
  cases o with
  | register name p => exact register_good h
  | unregister name => exact unregister_good h
  | removeDefaults => exact unregister_good h
  | reset =>
    unfold Plm.Op.run Plm.reset
    dsimp only
    split
    · exact h
    · rename_i s' hs; exact manager_good hs

theorem after_good {w : Plm.World} {entries : List (String × Nat)} (os : List Plm.Op) {s : Plm.State} (h : Good w s) :
    Good w (Plm.after w entries s os) := by
  induction os generalizing s with
  | nil => exact h
  | cons o os ih => exact ih (op_good o h)

/-- `default_hooks` has its own name. -/
def Own (s : Plm.State) : Prop := ∀ x ∈ s.named, x.1 = defaultName ↔ x.2 = defaultHooks

theorem loadEntries_fresh (w : Plm.World) (es : List (String × Nat)) (s : Plm.State)
    (hn : (s.named.map Prod.fst ++ es.map Prod.fst).Nodup) (hp : (pluginsOf s ++ es.map Prod.snd).Nodup) :
    ∃ l, Plm.loadEntries w es s = (.ok (), ⟨s.named ++ es, l⟩) := by
  induction es generalizing s with
  | nil => exact ⟨s.impls, by rw [List.append_nil]; rfl⟩
  | cons e es ih =>
    have h1 : e.1 ∉ s.named.map Prod.fst := by
      intro hm
      rw [List.nodup_append] at hn
      exact hn.2.2 _ hm _ (by rw [List.map_cons]; exact List.mem_cons_self) rfl
    have h2 : e.2 ∉ pluginsOf s := by
      intro hm
      rw [List.nodup_append] at hp
      exact hp.2.2 _ hm _ (by rw [List.map_cons]; exact List.mem_cons_self) rfl
    have hr : Plm.register w e.1 e.2 s = (.ok (), ⟨s.named ++ [(e.1, e.2)], addImpl w e.2 s.impls⟩) := by
      rcases register_run w e.1 e.2 s with ⟨_, h | h⟩ | ⟨h, _⟩
      · exact absurd h h1
      · exact absurd h h2
      · exact h
    unfold Plm.loadEntries
    rw [M.bind_ok (M.get_run s), if_neg, M.bind_ok hr]
    · obtain ⟨l, hl⟩ := ih ⟨s.named ++ [(e.1, e.2)], addImpl w e.2 s.impls⟩
        (by simpa [List.map_append, List.append_assoc] using hn)
        (by unfold pluginsOf at hp ⊢; simpa [List.map_append, List.append_assoc] using hp)
      refine ⟨l, ?_⟩
      rw [hl, List.append_assoc]
      rfl
    · intro ha
      obtain ⟨x, hx, he⟩ := List.any_eq_true.1 ha
      exact h1 (List.mem_map.2 ⟨x, hx, beq_iff_eq.1 he⟩)

/-- What is registered when the package is imported. -/
theorem manager_named (w : Plm.World) {entries : List (String × Nat)} (h : EntriesOk entries) :
    ∃ s, getPluginManager w entries = .ok s ∧ s.named = entries ++ [(defaultName, defaultHooks)] := by
  obtain ⟨l, hl⟩ := loadEntries_fresh w entries Plm.State.new (by simpa [Plm.State.new] using h.names)
    (by simpa [Plm.State.new, pluginsOf] using h.plugins)
  have hr : Plm.register w defaultName defaultHooks ⟨Plm.State.new.named ++ entries, l⟩ =
      (.ok (), ⟨(Plm.State.new.named ++ entries) ++ [(defaultName, defaultHooks)], addImpl w defaultHooks l⟩) := by
    rcases register_run w defaultName defaultHooks ⟨Plm.State.new.named ++ entries, l⟩ with ⟨_, hm | hm⟩ | ⟨e, _⟩
    · obtain ⟨x, hx, e⟩ := List.mem_map.1 hm
      exact absurd e (h.noDefault x (by simpa [Plm.State.new] using hx)).1
    · obtain ⟨x, hx, e⟩ := List.mem_map.1 hm
      exact absurd e (h.noDefault x (by simpa [Plm.State.new] using hx)).2
    · exact e
  refine ⟨⟨entries ++ [(defaultName, defaultHooks)], addImpl w defaultHooks l⟩, ?_, rfl⟩
  unfold getPluginManager
  rw [M.bind_ok hl, hr]
  rfl

theorem manager_own {w : Plm.World} {entries : List (String × Nat)} (h : EntriesOk entries) {s : Plm.State}
    (hs : getPluginManager w entries = .ok s) : Own s ∧ defaultHooks ∈ pluginsOf s := by
  obtain ⟨s', h1, h2⟩ := manager_named w h
  rw [hs] at h1
  injection h1 with h1
  subst h1
  constructor
  · intro x hx
    rw [h2, List.mem_append, List.mem_singleton] at hx
    rcases hx with hx | rfl
    · exact ⟨fun e => absurd e (h.noDefault x hx).1, fun e => absurd e (h.noDefault x hx).2⟩
    · exact ⟨fun _ => rfl, fun _ => rfl⟩
  · unfold pluginsOf
    rw [h2, List.map_append]
    exact List.mem_append_right _ List.mem_cons_self

theorem own_name {s : Plm.State} (h : Own s) : defaultName ∈ s.named.map Prod.fst ↔ defaultHooks ∈ pluginsOf s := by
  unfold pluginsOf
  rw [List.mem_map, List.mem_map]
  constructor
  · rintro ⟨x, hx, e⟩; exact ⟨x, hx, (h x hx).1 e⟩
  · rintro ⟨x, hx, e⟩; exact ⟨x, hx, (h x hx).2 e⟩

/-- `default_hooks` is unregistered by its name. -/
theorem unregister_default {w : Plm.World} {s : Plm.State} (h : Good w s) (ho : Own s) :
    Plm.unregister defaultName s =
      (.ok (), ⟨s.named.filter (fun y => y.2 != defaultHooks), s.impls.filter (fun q => q != defaultHooks)⟩) := by
  rcases unregister_run h defaultName with ⟨e, hn⟩ | ⟨p, hp, e⟩
  · rw [e]
    have hd : defaultHooks ∉ pluginsOf s := fun hm => hn ((own_name ho).2 hm)
    have e1 : s.named.filter (fun y => y.2 != defaultHooks) = s.named := List.filter_eq_self.2 (fun y hy => by
      rw [bne_iff_ne]; intro e; exact hd (e ▸ List.mem_map_of_mem hy))
    have e2 : s.impls.filter (fun q => q != defaultHooks) = s.impls := by
      rw [h.impls, arranged_filter]
      congr 1
      exact List.filter_eq_self.2 (fun q hq => by rw [bne_iff_ne]; intro e; exact hd (e ▸ hq))
    rw [e1, e2]
  · rw [e, show p = defaultHooks from (ho _ hp).1 rfl]

theorem mem_without {l : List (String × Nat)} {p q : Nat} :
    q ∈ (l.filter (fun y => y.2 != p)).map Prod.snd ↔ q ∈ l.map Prod.snd ∧ q ≠ p := by
  rw [pluginsOf_without, List.mem_filter, bne_iff_ne]

theorem op_own {w : Plm.World} {entries : List (String × Nat)} (he : EntriesOk entries) (o : Plm.Op) {s : Plm.State} (h : Good w s)
    (ho : Own s) (hop : ∀ name p, o = .register name p → (name = defaultName ↔ p = defaultHooks)) (os : List Plm.Op) {b : Bool}
    (hb : b = true ↔ defaultHooks ∈ pluginsOf s) :
    Own (o.run w entries s).2 ∧
      ∃ b', defaultThere b (o :: os) = defaultThere b' os ∧ (b' = true ↔ defaultHooks ∈ pluginsOf (o.run w entries s).2) := by
  cases o with
  | register name p =>
    show Own (Plm.register w name p s).2 ∧ _
    refine ⟨?_, _, rfl, ?_⟩
    · rcases register_run w name p s with ⟨e, _⟩ | ⟨e, _⟩
      · rw [e]; exact ho
      · rw [e]
        intro x hx
        rcases List.mem_append.1 hx with hx | hx
        · exact ho x hx
        · rw [List.mem_singleton.1 hx]; exact hop name p rfl
    · show _ ↔ defaultHooks ∈ pluginsOf (Plm.register w name p s).2
      rw [Bool.or_eq_true, hb, beq_iff_eq]
      rcases register_run w name p s with ⟨e, hm⟩ | ⟨e, _⟩
      · rw [e]
        refine ⟨?_, .inl⟩
        rintro (hm' | hp)
        · exact hm'
        · subst hp
          rcases hm with hm | hm
          · exact (own_name ho).1 ((hop name defaultHooks rfl).2 rfl ▸ hm)
          · exact hm
      · rw [e]
        unfold pluginsOf
        rw [List.map_append, List.mem_append]
        exact or_congr Iff.rfl (by rw [List.map_cons, List.map_nil, List.mem_singleton]; exact eq_comm)
  | unregister name =>
    show Own (Plm.unregister name s).2 ∧ _
    have hown : Own (Plm.unregister name s).2 := by
      rcases unregister_run h name with ⟨e, _⟩ | ⟨p, _, e⟩
      · rw [e]; exact ho
      · rw [e]; exact fun x hx => ho x (List.mem_filter.1 hx).1
    refine ⟨hown, _, rfl, ?_⟩
    show _ ↔ defaultHooks ∈ pluginsOf (Plm.unregister name s).2
    rw [Bool.and_eq_true, hb, bne_iff_ne]
    by_cases hn : name = defaultName
    · subst hn
      rw [unregister_default h ho]
      constructor
      · rintro ⟨_, h'⟩; exact absurd rfl h'
      · intro hm; exact absurd rfl (mem_without.1 hm).2
    · rcases unregister_run h name with ⟨e, _⟩ | ⟨p, hp, e⟩
      · rw [e]; exact ⟨fun h => h.1, fun h => ⟨h, hn⟩⟩
      · rw [e]
        have hpd : p ≠ defaultHooks := fun e => hn ((ho _ hp).2 e)
        exact ⟨fun h => mem_without.2 ⟨h.1, hpd.symm⟩, fun h => ⟨(mem_without.1 h).1, hn⟩⟩
  | removeDefaults =>
    show Own (Plm.unregister defaultName s).2 ∧ _
    rw [unregister_default h ho]
    refine ⟨fun x hx => ho x (List.mem_filter.1 hx).1, false, rfl, ?_⟩
    show _ ↔ defaultHooks ∈ pluginsOf (Plm.unregister defaultName s).2
    rw [unregister_default h ho]
    exact ⟨(fun h => by cases h), fun hm => absurd rfl (mem_without.1 hm).2⟩
  | reset =>
    obtain ⟨s', hs, _⟩ := manager_named w he
    have hr : Plm.Op.run w entries .reset s = (.ok (), s') := by
      show Plm.reset w entries s = _
      unfold Plm.reset
      rw [hs]
    rw [hr]
    have := manager_own he hs
    exact ⟨this.1, true, rfl, fun _ => this.2, fun _ => rfl⟩

theorem after_own {w : Plm.World} {entries : List (String × Nat)} (he : EntriesOk entries) (os : List Plm.Op) {s : Plm.State}
    (h : Good w s) (ho : Own s) (hop : OwnName os) {b : Bool} (hb : b = true ↔ defaultHooks ∈ pluginsOf s) :
    Own (Plm.after w entries s os) ∧ (defaultThere b os = true ↔ defaultHooks ∈ pluginsOf (Plm.after w entries s os)) := by
  induction os generalizing s b with
  | nil => exact ⟨ho, hb⟩
  | cons o os ih =>
    obtain ⟨h1, b', h2, h3⟩ := op_own (w := w) he o h ho
      (fun name p e => hop name p (e ▸ List.mem_cons_self)) os hb
    rw [h2]
    exact ih (op_good o h) h1 (fun name p hm => hop name p (List.mem_cons_of_mem _ hm)) h3

end Plm

/-! ### The theorems -/

/-- C108: what is there when the package is imported. -/
theorem C108_start (w : Plm.World) (entries : List (String × Nat)) (he : EntriesOk entries) :
    ∃ s, getPluginManager w entries = .ok s ∧ pluginsOf s = entries.map Prod.snd ++ [defaultHooks] := by
  obtain ⟨s, h1, h2⟩ := Plm.manager_named w he
  exact ⟨s, h1, by unfold pluginsOf; rw [h2, List.map_append]; rfl⟩

/-- C108: whatever was done, implementations of a hook are called in this order: those marked `tryfirst`, latest first, then plain
ones, latest first, then those marked `trylast`; no plugin is called twice. -/
theorem C108_order (w : Plm.World) (entries : List (String × Nat)) (s0 : Plm.State) (h0 : getPluginManager w entries = .ok s0)
    (ops : List Plm.Op) :
    let s := Plm.after w entries s0 ops
    s.order = (marked w .first (pluginsOf s)).reverse ++ (marked w .plain (pluginsOf s)).reverse ++ marked w .last (pluginsOf s) ∧
      (pluginsOf s).Nodup := by
  have hg := Plm.after_good (entries := entries) ops (Plm.manager_good h0)
  refine ⟨?_, hg.plugins⟩
  unfold Plm.State.order
  rw [hg.impls]
  unfold Plm.arranged
  simp only [List.reverse_append, List.reverse_reverse, List.append_assoc]

/-- C108: whatever was done, removing the default plugins leaves the others, and the others are called in the same order as before. -/
theorem C108_removed_partial (w : Plm.World) (entries : List (String × Nat)) (he : EntriesOk entries) (s0 : Plm.State)
    (h0 : getPluginManager w entries = .ok s0) (ops : List Plm.Op) (ho : OwnName ops) :
    let s := Plm.after w entries s0 ops
    let t := (removeDefaults s).2
    (removeDefaults s).1 = .ok () ∧ pluginsOf t = (pluginsOf s).filter (fun p => p != defaultHooks) ∧
      t.order = s.order.filter (fun p => p != defaultHooks) := by
  have hg := Plm.after_good (entries := entries) ops (Plm.manager_good h0)
  have hm := Plm.manager_own he h0
  have hown := (Plm.after_own he ops (Plm.manager_good h0) hm.1 ho (b := true) ⟨fun _ => hm.2, fun _ => rfl⟩).1
  dsimp only
  unfold removeDefaults
  rw [Plm.unregister_default hg hown]
  refine ⟨rfl, ?_, ?_⟩
  · exact Plm.pluginsOf_without ..
  · exact List.filter_reverse.symm

/-- C108: hooks that `default_hooks` does not implement are called as before. -/
theorem C108_other_hooks_partial (w : Plm.World) (entries : List (String × Nat)) (he : EntriesOk entries) (s0 : Plm.State)
    (h0 : getPluginManager w entries = .ok s0) (ops : List Plm.Op) (ho : OwnName ops) (hw : w defaultHooks = none) :
    (removeDefaults (Plm.after w entries s0 ops)).2.order = (Plm.after w entries s0 ops).order := by
  rw [(C108_removed_partial w entries he s0 h0 ops ho).2.2]
  refine List.filter_eq_self.2 (fun p hp => ?_)
  rw [bne_iff_ne]
  rintro rfl
  rw [(C108_order w entries s0 h0 ops).1, List.mem_append, List.mem_append, List.mem_reverse, List.mem_reverse] at hp
  have : ∀ m ps, defaultHooks ∈ marked w m ps → False := by
    intro m ps hm
    have := (List.mem_filter.1 hm).2
    rw [hw] at this
    cases this
  rcases hp with (hp | hp) | hp <;> exact this _ _ hp

/-- C108: `default_hooks` is called, once, exactly if it was not removed since it was there or brought back. -/
theorem C108_there_partial (w : Plm.World) (entries : List (String × Nat)) (he : EntriesOk entries) (s0 : Plm.State)
    (h0 : getPluginManager w entries = .ok s0) (ops : List Plm.Op) (ho : OwnName ops) (m : Plm.Pos)
    (hw : w defaultHooks = some m) :
    (Plm.after w entries s0 ops).order.count defaultHooks = if defaultThere true ops then 1 else 0 := by
  have hm := Plm.manager_own he h0
  have hth := (Plm.after_own he ops (Plm.manager_good h0) hm.1 ho (b := true) ⟨fun _ => hm.2, fun _ => rfl⟩).2
  obtain ⟨h1, hn⟩ := C108_order w entries s0 h0 ops
  have hc : ∀ m' ps, (marked w m' ps).count defaultHooks = if m' = m then ps.count defaultHooks else 0 := by
    intro m' ps
    unfold marked
    by_cases e : m' = m
    · rw [if_pos e, List.count_filter (by rw [hw, e]; exact beq_self_eq_true _)]
    · rw [if_neg e, List.count_eq_zero]
      intro hmem
      have := (List.mem_filter.1 hmem).2
      rw [hw, beq_iff_eq] at this
      injection this with this
      exact e this.symm
  rw [h1, List.count_append, List.count_append, List.count_reverse, List.count_reverse, hc, hc, hc]
  have hcount : (pluginsOf (Plm.after w entries s0 ops)).count defaultHooks = if defaultThere true ops then 1 else 0 := by
    by_cases e : defaultThere true ops = true
    · rw [if_pos e]
      have := List.nodup_iff_count.1 hn defaultHooks
      have := List.count_pos_iff.2 (hth.1 e)
      omega
    · rw [if_neg e, List.count_eq_zero]
      exact fun hm => e (hth.2 hm)
  rw [hcount]
  cases m <;> simp

/-- C108: whatever was done, resetting leaves exactly what is there when the package is imported. -/
theorem C108_reset (w : Plm.World) (entries : List (String × Nat)) (s0 : Plm.State) (h0 : getPluginManager w entries = .ok s0)
    (ops : List Plm.Op) : Plm.after w entries s0 (ops ++ [.reset]) = s0 := by
  have happ : ∀ (os : List Plm.Op) (s : Plm.State), Plm.after w entries s (os ++ [.reset]) =
      (Plm.reset w entries (Plm.after w entries s os)).2 := by
    intro os
    induction os with
    | nil => intro s; rfl
    | cons o os ih => intro s; exact ih _
  rw [happ]
  unfold Plm.reset
  rw [h0]

/-- C108: a plugin that is there is not registered again, nor is a name used twice, and nothing changes then. -/
theorem C108_twice (w : Plm.World) (name : String) (p : Nat) (s : Plm.State) :
    (Plm.register w name p s).1 = .error .valueError ↔ name ∈ s.named.map Prod.fst ∨ p ∈ pluginsOf s := by
  rcases Plm.register_run w name p s with ⟨e, h⟩ | ⟨e, h1, h2⟩
  · rw [e]; exact ⟨fun _ => h, fun _ => rfl⟩
  · rw [e]
    refine ⟨(fun h => by cases h), ?_⟩
    rintro (h | h)
    · exact absurd h h1
    · exact absurd h h2

/-- C108: after removing the default plugins a batch update applies nothing if the other plugins return nothing. -/
theorem C108_batch_partial {U σ : Type} (w : Plm.World) (entries : List (String × Nat)) (he : EntriesOk entries) (s0 : Plm.State)
    (h0 : getPluginManager w entries = .ok s0) (ops : List Plm.Op) (ho : OwnName ops) (impl : Nat → BatchPlugin U)
    (hi : ∀ p, p ≠ defaultHooks → ∀ us h, (impl p).pre us h = (none, h) ∧ (impl p).post us h = h)
    (upd : U → M PyErr σ Unit) (us : Iterable U) (x : WithIters U σ) :
    batchUpdate upd (batchPlugins impl (removeDefaults (Plm.after w entries s0 ops)).2) us x = (.ok (), x) := by
  have hr := (C108_removed_partial w entries he s0 h0 ops ho).2.2
  unfold batchPlugins
  rw [hr]
  generalize hl : (Plm.after w entries s0 ops).order.filter (fun p => p != defaultHooks) = l
  have hne : ∀ p ∈ l, p ≠ defaultHooks := by
    intro p hp
    rw [← hl] at hp
    exact bne_iff_ne.1 (List.mem_filter.1 hp).2
  clear hr hl
  have h1 : ∀ h, callBatch (l.map impl) us h = ([], h) := by
    induction l with
    | nil => intro h; rfl
    | cons p l ih =>
      intro h
      have := (hi p (hne p List.mem_cons_self) us h).1
      rw [List.map_cons]
      unfold callBatch
      rw [this]
      dsimp only
      rw [ih (fun q hq => hne q (List.mem_cons_of_mem _ hq))]
  have h2 : ∀ h, (l.map impl).foldl (fun h p => p.post us h) h = h := by
    induction l with
    | nil => intro h; rfl
    | cons p l ih =>
      intro h
      rw [List.map_cons, List.foldl_cons, (hi p (hne p List.mem_cons_self) us h).2]
      exact ih (fun q hq => hne q (List.mem_cons_of_mem _ hq))
        (fun h => by
          have := h1 h
          rw [List.map_cons] at this
          unfold callBatch at this
          rw [(hi p (hne p List.mem_cons_self) us h).1] at this
          exact Prod.ext (congrArg Prod.fst this) (congrArg Prod.snd this)) h
  rw [batchUpdate_run upd _ us x (h1 _)]
  show (_, _) = _
  rw [h2]

/-- The implementations that are called do nothing and return nothing. -/
theorem call_silent {ε σ β : Type} (impl : Nat → M ε σ (Option β)) (l : List Nat) (s : σ)
    (h : ∀ p ∈ l, impl p s = (.ok none, s)) : call impl l s = (.ok [], s) := by
  induction l with
  | nil => rfl
  | cons p l ih =>
    unfold call
    rw [M.bind_ok (h p List.mem_cons_self), M.bind_ok (ih (fun q hq => h q (List.mem_cons_of_mem _ hq)))]
    rfl

/-- C108: after removing the default plugins dependent configs are not refreshed if the other plugins do nothing. -/
theorem C108_changed_partial {σ : Type} (w : Plm.World) (entries : List (String × Nat)) (he : EntriesOk entries) (s0 : Plm.State)
    (h0 : getPluginManager w entries = .ok s0) (ops : List Plm.Op) (ho : OwnName ops) (impl : Nat → M PyErr σ (Option Unit)) (x : σ)
    (hi : ∀ p, p ≠ defaultHooks → impl p x = (.ok none, x)) :
    changed impl (removeDefaults (Plm.after w entries s0 ops)).2 x = (.ok (), x) := by
  unfold changed
  rw [(C108_removed_partial w entries he s0 h0 ops ho).2.2, M.bind_ok (call_silent impl _ x _)]
  · rfl
  · exact fun p hp => hi p (bne_iff_ne.1 (List.mem_filter.1 hp).2)

/-- C108: after removing the default plugins no iterative runner can be made if the other plugins give no cases. -/
theorem C108_cases_partial {V : Type} (w : Plm.World) (entries : List (String × Nat)) (he : EntriesOk entries) (s0 : Plm.State)
    (h0 : getPluginManager w entries = .ok s0) (ops : List Plm.Op) (ho : OwnName ops)
    (impl : Nat → List (Upd V) → M PyErr (Mgrs V) (Option (List (List (Upd V))))) (x : Mgrs V) (us : List (Upd V))
    (hi : ∀ p, p ≠ defaultHooks → impl p us x = (.ok none, x)) (items : PathLike ⊕ List PathLike) (sps : List SectionPath)
    (base : Option String) (strip : Bool) (hs : SectionPath.listFromAmbiguous items strip base = .ok sps) :
    newRunner impl (removeDefaults (Plm.after w entries s0 ops)).2 items us base strip x = (.error .indexError, x) := by
  unfold newRunner cases
  rw [(C108_removed_partial w entries he s0 h0 ops ho).2.2, hs, M.bind_ok (M.liftE_run _ x)]
  rw [M.bind_ok (a := ([] : List (List (Upd V)))) (s' := x)]
  · rfl
  · rw [M.bind_ok (call_silent _ _ x _)]
    · rfl
    · exact fun p hp => hi p (bne_iff_ne.1 (List.mem_filter.1 hp).2)

/-- C108: while `default_hooks` is there, a batch update has the updates it was given between those of the plugins called before and
after it: the order of calls is that of C93_anywhere_partial. -/
theorem C108_batch_there_partial {U : Type} (w : Plm.World) (entries : List (String × Nat)) (he : EntriesOk entries) (s0 : Plm.State)
    (h0 : getPluginManager w entries = .ok s0) (ops : List Plm.Op) (ho : OwnName ops) (m : Plm.Pos) (hw : w defaultHooks = some m)
    (hthere : defaultThere true ops = true) (impl : Nat → BatchPlugin U) (hd : impl defaultHooks = defaultBatch) :
    let s := Plm.after w entries s0 ops
    ∃ before after : List Nat, s.order = before ++ defaultHooks :: after ∧ defaultHooks ∉ before ∧ defaultHooks ∉ after ∧
      batchPlugins impl s = before.map impl ++ defaultBatch :: after.map impl ∧
      (removeDefaults s).2.order = before ++ after := by
  have hc := C108_there_partial w entries he s0 h0 ops ho m hw
  rw [if_pos hthere] at hc
  have hmem : defaultHooks ∈ (Plm.after w entries s0 ops).order := List.count_pos_iff.1 (by omega)
  obtain ⟨a, b, hab⟩ := List.append_of_mem hmem
  rw [hab, List.count_append, List.count_cons_self] at hc
  have ha : defaultHooks ∉ a := List.count_eq_zero.1 (by omega)
  have hb : defaultHooks ∉ b := List.count_eq_zero.1 (by omega)
  refine ⟨a, b, hab, ha, hb, ?_, ?_⟩
  · unfold batchPlugins
    rw [hab, List.map_append, List.map_cons, hd]
  · rw [(C108_removed_partial w entries he s0 h0 ops ho).2.2, hab, List.filter_append, List.filter_cons, if_neg (by simp)]
    have e1 : a.filter (fun p => p != defaultHooks) = a := List.filter_eq_self.2 (fun p hp => by
      rw [bne_iff_ne]; rintro rfl; exact ha hp)
    have e2 : b.filter (fun p => p != defaultHooks) = b := List.filter_eq_self.2 (fun p hp => by
      rw [bne_iff_ne]; rintro rfl; exact hb hp)
    rw [e1, e2]

/-- The implementations return the given results and change nothing. -/
theorem call_pure {ε σ β : Type} (impl : Nat → M ε σ (Option β)) (more : Nat → Option β) (l : List Nat) (s : σ)
    (h : ∀ p ∈ l, impl p s = (.ok (more p), s)) : call impl l s = (.ok (l.filterMap more), s) := by
  induction l with
  | nil => rfl
  | cons p l ih =>
    unfold call
    rw [M.bind_ok (h p List.mem_cons_self), M.bind_ok (ih (fun q hq => h q (List.mem_cons_of_mem _ hq))), List.filterMap_cons]
    cases more p <;> rfl

/-- The same, with one implementation among them that may raise. -/
theorem call_around {ε σ β : Type} (impl : Nat → M ε σ (Option β)) (more : Nat → Option β) (a : List Nat) (d : Nat) (b : List Nat)
    (s : σ) (h : ∀ p ∈ a ++ b, impl p s = (.ok (more p), s)) (r : Except ε β) (hd : impl d s = (r.map some, s)) :
    call impl (a ++ d :: b) s = (r.map (fun x => a.filterMap more ++ x :: b.filterMap more), s) := by
  induction a with
  | nil =>
    rw [List.nil_append]
    unfold call
    cases r with
    | error e => rw [M.bind_run, hd]; rfl
    | ok x =>
      rw [M.bind_ok hd, M.bind_ok (call_pure impl more b s (fun p hp => h p hp))]
      rfl
  | cons p a ih =>
    rw [List.cons_append]
    unfold call
    rw [M.bind_ok (h p List.mem_cons_self), M.bind_run, ih (fun q hq => h q (List.mem_cons_of_mem _ hq)), List.filterMap_cons]
    cases r with
    | error e => rfl
    | ok x => cases more p <;> rfl

/-- C108: while `default_hooks` is there, an iterative runner is made with the product of the updates between the cases of the plugins
called before and after it: it is the runner of C31_plugins and C106 with those cases. -/
theorem C108_cases_there_partial {V : Type} (w : Plm.World) (entries : List (String × Nat)) (he : EntriesOk entries)
    (s0 : Plm.State) (h0 : getPluginManager w entries = .ok s0) (ops : List Plm.Op) (ho : OwnName ops) (m : Plm.Pos)
    (hw : w defaultHooks = some m) (hthere : defaultThere true ops = true)
    (impl : Nat → List (Upd V) → M PyErr (Mgrs V) (Option (List (List (Upd V))))) (x : Mgrs V) (us : List (Upd V))
    (more : Nat → Option (List (List (Upd V)))) (hi : ∀ p, p ≠ defaultHooks → impl p us x = (.ok (more p), x))
    (hd : impl defaultHooks us x = ((getConfigProduct us).map some, x)) (items : PathLike ⊕ List PathLike) (base : Option String)
    (strip : Bool) (run : RunHooks V) (preBatch : List (Upd V) → List (Upd V)) :
    let s := Plm.after w entries s0 ops
    ∃ before after : List Nat, s.order = before ++ defaultHooks :: after ∧ defaultHooks ∉ before ∧ defaultHooks ∉ after ∧
      newRunner impl s items us base strip x =
        IRunner.new ⟨fun _ => (before.filterMap more).flatten, fun cs => cs ++ (after.filterMap more).flatten, preBatch, run⟩
          items us base strip x := by
  obtain ⟨a, b, hab, ha, hb, -, -⟩ := C108_batch_there_partial (U := Nat) w entries he s0 h0 ops ho m hw hthere
    (fun _ => defaultBatch) rfl
  refine ⟨a, b, hab, ha, hb, ?_⟩
  have hcall := call_around (fun p => impl p us) more a defaultHooks b x (fun p hp => hi p (by
    rintro rfl
    rcases List.mem_append.1 hp with h | h
    · exact ha h
    · exact hb h)) (getConfigProduct us) hd
  unfold newRunner cases IRunner.new IRunner.getCases
  rw [hab, M.bind_run, M.bind_run, M.liftE_run]
  cases SectionPath.listFromAmbiguous items strip base with
  | error e => rfl
  | ok ri =>
    dsimp only
    rw [M.bind_run, M.bind_run, M.bind_run, M.liftE_run, hcall]
    cases getConfigProduct us with
    | error e => rfl
    | ok cs =>
      dsimp only [Except.map]
      rw [List.flatten_append, List.flatten_cons, ← List.append_assoc]
      rfl

/-- C108: after resetting, without entry points, a batch update is that of the default plugin alone. -/
theorem C108_batch_reset {U σ : Type} (w : Plm.World) (m : Plm.Pos) (hw : w defaultHooks = some m) (s0 : Plm.State)
    (h0 : getPluginManager w [] = .ok s0) (ops : List Plm.Op) (impl : Nat → BatchPlugin U) (hd : impl defaultHooks = defaultBatch)
    (upd : U → M PyErr σ Unit) (us : Iterable U) (x : WithIters U σ) :
    batchUpdate upd (batchPlugins impl (Plm.after w [] s0 (ops ++ [.reset]))) us x = batchUpdate upd (registered []) us x := by
  rw [C108_reset w [] s0 h0 ops]
  have hp : pluginsOf s0 = [defaultHooks] := by
    obtain ⟨s, h1, h2⟩ := C108_start w [] ⟨List.nodup_nil, List.nodup_nil, fun e h => by cases h⟩
    rw [h0] at h1
    injection h1 with h1
    exact h1 ▸ h2
  have ho : s0.order = [defaultHooks] := by
    have := (C108_order w [] s0 h0 []).1
    dsimp only [Plm.after] at this
    rw [this, hp]
    unfold marked
    cases m <;> simp [hw]
  unfold batchPlugins
  rw [ho, List.map_cons, List.map_nil, hd]
  rfl

/-! ### Examples -/

/-- All plugins implement the hook; 2 is marked `tryfirst`, 3 `trylast`. -/
def demoHook : Plm.World := fun p => if p = 2 then some .first else if p = 3 then some .last else some .plain

/-- An installed plugin. -/
def demoPlmEntries : List (String × Nat) := [("installed", 7)]

theorem demoPlmEntries_ok : EntriesOk demoPlmEntries := ⟨by decide, by decide, by decide⟩

/-- What is there in the example when the package is imported. -/
def demoPlm : Plm.State := ⟨[("installed", 7), ("pyfileconf.plugin.default_hooks", 0)], [7, 0]⟩

theorem demoPlm_start : getPluginManager demoHook demoPlmEntries = .ok demoPlm := by rfl

/-- Plugins that are registered. -/
def demoPlmOps : List Plm.Op := [.register "a" 1, .register "b" 2, .register "c" 3, .register "d" 4, .register "e" 1]

theorem demoPlmOps_own : OwnName demoPlmOps := by
  intro name p h
  simp only [demoPlmOps, List.mem_cons, List.not_mem_nil, or_false, Plm.Op.register.injEq] at h
  rcases h with ⟨rfl, rfl⟩ | ⟨rfl, rfl⟩ | ⟨rfl, rfl⟩ | ⟨rfl, rfl⟩ | ⟨rfl, rfl⟩ <;>
    exact ⟨fun h => absurd h (by decide), fun h => absurd h (by decide)⟩

example : (Plm.after demoHook demoPlmEntries demoPlm demoPlmOps).order = [2, 4, 1, 0, 7, 3] := by decide

example : (removeDefaults (Plm.after demoHook demoPlmEntries demoPlm demoPlmOps)).2.order = [2, 4, 1, 7, 3] := by decide

example : (Plm.register demoHook "e" 1 (Plm.after demoHook demoPlmEntries demoPlm demoPlmOps)).1 = .error .valueError := by rfl

/-- Non-vacuity of the hypotheses. -/
example : EntriesOk demoPlmEntries ∧ OwnName demoPlmOps ∧ getPluginManager demoHook demoPlmEntries = .ok demoPlm ∧
    demoHook defaultHooks = some .plain := ⟨demoPlmEntries_ok, demoPlmOps_own, demoPlm_start, rfl⟩

example : defaultThere true (demoPlmOps ++ [.removeDefaults]) = false ∧
    defaultThere true (demoPlmOps ++ [.removeDefaults, .register "pyfileconf.plugin.default_hooks" 0]) = true := by decide

/-- Plugin 1 gives one more case and the others none. -/
example : defaultThere true demoPlmOps = true ∧ ∃ (impl : Nat → List (Upd Nat) → M PyErr (Mgrs Nat) (Option (List (List (Upd Nat)))))
    (more : Nat → Option (List (List (Upd Nat)))), (∀ p us x, p ≠ defaultHooks → impl p us x = (.ok (more p), x)) ∧
      (∀ us x, impl defaultHooks us x = ((getConfigProduct us).map some, x)) ∧ more 1 = some [[]] :=
  ⟨by decide, fun p us x => if p = defaultHooks then ((getConfigProduct us).map some, x)
      else (.ok (if p = 1 then some [[]] else none), x), fun p => if p = 1 then some [[]] else none,
    fun p us x h => if_neg h, fun us x => if_pos rfl, rfl⟩

/-! ### Where it fails -/

/-- C108 fails if the name of `default_hooks` is used for another plugin after it was removed: removing the default plugins
again removes that plugin. -/
theorem C108_name_violated :
    ∃ (ops : List Plm.Op) (p : Nat), p ≠ defaultHooks ∧ p ∈ (Plm.after demoHook demoPlmEntries demoPlm ops).order ∧
      p ∉ (removeDefaults (Plm.after demoHook demoPlmEntries demoPlm ops)).2.order :=
  ⟨[.removeDefaults, .register "pyfileconf.plugin.default_hooks" 1], 1, by decide, by decide, by decide⟩

/-- C108 fails if `default_hooks` is registered with another name: it cannot be removed as default plugin. -/
theorem C108_other_name_violated :
    ∃ ops : List Plm.Op, defaultHooks ∈ (removeDefaults (Plm.after demoHook demoPlmEntries demoPlm ops)).2.order :=
  ⟨[.removeDefaults, .register "mine" 0], by decide⟩

/-- Registering `default_hooks` again after it was removed does not bring back what was there: it is called before the plugins that
were registered after it. -/
theorem C108_again_violated :
    (Plm.after demoHook demoPlmEntries demoPlm [.register "a" 1]).order = [1, 0, 7] ∧
    (Plm.after demoHook demoPlmEntries demoPlm
      [.register "a" 1, .removeDefaults, .register "pyfileconf.plugin.default_hooks" 0]).order = [0, 1, 7] := by decide

/-- Resetting also takes away the plugins that were registered. -/
theorem C108_reset_violated :
    (Plm.after demoHook demoPlmEntries demoPlm [.register "a" 1, .removeDefaults, .reset]).order = [0, 7] := by decide

end Verif.Props
