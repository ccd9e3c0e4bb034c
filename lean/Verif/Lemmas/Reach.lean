import Verif.Lemmas.Inherit

/-
Invariant of all reachable states of a config manager: every config belongs to the file
at its own position.
-/

namespace Verif.Model
open Verif.Py
variable {V : Type}

/-- Every config below `n`, which is at the position `p`, belongs to the file at its own
position. -/
inductive NodeOK : List String → Node V → Prop
  | conf {p c} : c.file = some (.item p) → NodeOK p (.conf c)
  | file {p} : NodeOK p (.file (.item p))
  | sect {p cfg attrs map} : (∀ c, cfg = some c → c.file = some (.sect p)) →
      (∀ x n, AList.get? attrs x = some n → NodeOK (p ++ [x]) n) →
      (∀ x n, AList.get? map x = some n → NodeOK (p ++ [x]) n) → NodeOK p (.sect cfg attrs map)
  | own {p} : NodeOK p .own
  | other {p} : NodeOK p .other

namespace NodeOK

theorem conf_file {p : List String} {c : Conf V} (h : NodeOK p (.conf c)) : c.file = some (.item p) := by
  cases h; assumption

theorem file_loc {p : List String} {l : FileLoc} (h : NodeOK (V := V) p (.file l)) : l = .item p := by
  cases h; rfl

theorem sect_inv {p : List String} {cfg : Option (Conf V)} {attrs map} (h : NodeOK p (.sect cfg attrs map)) :
    (∀ c, cfg = some c → c.file = some (.sect p)) ∧
    (∀ x n, AList.get? attrs x = some n → NodeOK (p ++ [x]) n) ∧
    (∀ x n, AList.get? map x = some n → NodeOK (p ++ [x]) n) := by
  cases h; exact ⟨by assumption, by assumption, by assumption⟩

/-- An object found at `p`: it is in order, or it is the config of the section around `p`. -/
def Found (p : List String) (n : Node V) : Prop :=
  NodeOK p n ∨ ∃ c, n = .conf c ∧ c.file = some (.sect p.dropLast)

theorem child {p : List String} {n n' : Node V} (h : NodeOK p n) {res nm x}
    (hc : n.child res nm x = .ok n') : Found (p ++ [x]) n' := by
  unfold Node.child at hc
  cases n with
  | sect cfg attrs map =>
    obtain ⟨h1, h2, h3⟩ := h.sect_inv
    have hown : ∀ c, cfg = some c → Found (p ++ [x]) (.conf c) := by
      intro c hc
      right
      exact ⟨c, rfl, by simpa using h1 c hc⟩
    simp only at hc
    split at hc
    · cases hc; exact .inl .other
    · split at hc
      · split at hc
        · split at hc
          · cases hc; exact hown _ rfl
          · cases hc
        · cases hc
      · rename_i n'' ha
        cases hc
        exact .inl (h2 _ _ ha)
      · split at hc
        · split at hc
          · cases hc; exact hown _ rfl
          · split at hc
            · rename_i hm; cases hc; exact .inl (h3 _ _ hm)
            · cases hc
        · rename_i hm; cases hc; exact .inl (h3 _ _ hm)
        · cases hc
  | conf c =>
    simp only at hc
    split at hc
    · cases hc; exact .inl .other
    · cases hc
  | _ => cases hc

theorem walk_conf_cons {res nm} {c : Conf V} {x p n'} (h : Node.walk res nm (.conf c) (x :: p) = .ok n') :
    n' = .other := by
  rw [Node.walk] at h
  have hoth : ∀ p n', Node.walk (V := V) sectionReserved x .other p = .ok n' → n' = .other := by
    intro p n' h
    cases p with
    | nil => cases h; rfl
    | cons y p => simp [Node.walk, Node.child] at h
  cases hg : c.getattr x with
  | ok u =>
    rw [show Node.child res nm (.conf c) x = .ok .other by simp [Node.child, hg]] at h
    exact hoth p n' h
  | error e =>
    rw [show Node.child res nm (.conf c) x = .error e by simp [Node.child, hg]] at h
    cases h

theorem walk {p : List String} {n n' : Node V} (h : NodeOK p n) {res nm q}
    (hw : n.walk res nm q = .ok n') : Found (p ++ q) n' := by
  induction q generalizing p n res nm with
  | nil => cases hw; simpa using .inl h
  | cons x q ih =>
    rw [Node.walk] at hw
    cases hc : n.child res nm x with
    | error e => rw [hc] at hw; cases hw
    | ok m =>
      rw [hc] at hw
      simp only at hw
      have hm := h.child hc
      rw [show p ++ x :: q = p ++ [x] ++ q by simp]
      rcases hm with hm | ⟨c, rfl, hf⟩
      · exact ih hm hw
      · cases q with
        | nil => cases hw; right; exact ⟨c, rfl, by simpa using hf⟩
        | cons y q =>
          have := walk_conf_cons hw
          subst this
          exact .inl .other

theorem set_attrs {p : List String} {cfg : Option (Conf V)} {attrs map} (h : NodeOK p (.sect cfg attrs map))
    {x n} (hn : NodeOK (p ++ [x]) n) : NodeOK p (.sect cfg (AList.set attrs x n) map) := by
  obtain ⟨h1, h2, h3⟩ := h.sect_inv
  refine .sect h1 ?_ h3
  intro y m hy
  rw [AList.get?_set] at hy
  split at hy
  · rename_i hxy; subst hxy; cases hy; exact hn
  · exact h2 y m hy

theorem set_map {p : List String} {cfg : Option (Conf V)} {attrs map} (h : NodeOK p (.sect cfg attrs map))
    {x n} (hn : NodeOK (p ++ [x]) n) : NodeOK p (.sect cfg attrs (AList.set map x n)) := by
  obtain ⟨h1, h2, h3⟩ := h.sect_inv
  refine .sect h1 h2 ?_
  intro y m hy
  rw [AList.get?_set] at hy
  split at hy
  · rename_i hxy; subst hxy; cases hy; exact hn
  · exact h3 y m hy

/-- Changing an object in place keeps the invariant if the change keeps it for the object
found there. -/
theorem modifyAt {f : Node V → Node V} (q : List String) :
    ∀ {p : List String} {n : Node V} (_ : NodeOK p n) {res nm},
    (∀ m, n.walk res nm q = .ok m → (NodeOK (p ++ q) m → NodeOK (p ++ q) (f m)) ∧
      (∀ c c', m = .conf c → f m = .conf c' → c'.file = c.file)) →
    NodeOK p (n.modifyAt res nm q f) := by
  induction q with
  | nil =>
    intro p n h res nm hf
    rw [Node.modifyAt]
    have := (hf n rfl).1
    simp only [List.append_nil] at this
    exact this h
  | cons x q ih =>
    intro p n h res nm hf
    cases n with
    | sect cfg attrs map =>
      obtain ⟨h1, h2, h3⟩ := h.sect_inv
      rw [Node.modifyAt]
      by_cases hres : x ∈ res
      · rw [if_pos hres]; exact h
      · rw [if_neg hres]
        -- the case of the section's own config
        have hownCase : x = nm → (∀ c, cfg = some c → Node.child res nm (.sect cfg attrs map) x = .ok (.conf c)) →
            NodeOK p (Node.modifyAt.ownCase cfg attrs map q f) := by
          intro hx hchild
          unfold Node.modifyAt.ownCase
          cases cfg with
          | none => exact h
          | some c =>
            cases q with
            | cons y q => exact h
            | nil =>
              dsimp only
              split
              · rename_i c' hfc
                refine .sect ?_ h2 h3
                intro c'' hc''
                cases hc''
                have hw : Node.walk res nm (.sect (some c) attrs map) [x] = .ok (.conf c) := by
                  rw [Node.walk, hchild c rfl]; rfl
                rw [(hf _ hw).2 c c' rfl hfc]
                exact h1 c rfl
              · exact h
        cases ha : AList.get? attrs x with
        | some n' =>
          by_cases hown : n' = .own
          · subst hown
            dsimp only
            by_cases hx : x = nm
            · rw [if_pos hx]
              apply hownCase hx
              intro c hc
              subst hc
              subst hx
              simp [Node.child, hres, ha]
            · rw [if_neg hx]; exact h
          · have hch : Node.child res nm (.sect cfg attrs map) x = .ok n' := by
              simp only [Node.child, if_neg hres, ha]
              all_goals (cases n' <;> first | rfl | exact absurd rfl hown)
            have : NodeOK (p ++ [x]) (n'.modifyAt sectionReserved x q f) := by
              apply ih (h2 x n' ha)
              intro m hm
              have := hf m (by rw [Node.walk, hch]; exact hm)
              simpa using this
            cases n' <;> first | exact absurd rfl hown | exact h.set_attrs this
        | none =>
          dsimp only
          by_cases hx : cfg.isSome = true ∧ x = nm
          · rw [if_pos hx]
            apply hownCase hx.2
            intro c hc
            subst hc
            have hx2 := hx.2
            subst hx2
            simp [Node.child, hres, ha]
          · rw [if_neg hx]
            cases hm : AList.get? map x with
            | none => exact h
            | some n' =>
              dsimp only
              have hch : Node.child res nm (.sect cfg attrs map) x = .ok n' := by
                simp only [Node.child, if_neg hres, ha, hm]
                cases cfg with
                | none => rfl
                | some c => simp at hx; simp [hx]
              have : NodeOK (p ++ [x]) (n'.modifyAt sectionReserved x q f) := by
                apply ih (h3 x n' hm)
                intro m hm
                have := hf m (by rw [Node.walk, hch]; exact hm)
                simpa using this
              exact h.set_map this
    | _ => exact h

end NodeOK

/-! ### Loading -/

mutual
theorem fromFiles_ok (fs : Files V) : ∀ (t : DirTree) (p : List String) (n : Node V),
    fromFiles fs p t = .ok n → NodeOK p n
  | .mk hasSection files dirs => by
    intro p n h
    rw [fromFiles] at h
    simp only at h
    split at h
    · simp at h
    · rename_i cfg hcfg
      split at h
      · simp at h
      · rename_i sections hs
        simp only [Except.ok.injEq] at h
        subst h
        refine .sect ?_ (by intro x n h; simp [AList.get?] at h) ?_
        · intro c hc
          subst hc
          exact (sectionConfig_file hcfg).2
        · intro x n hg
          rcases AList.get?_foldl_set _ _ _ _ hg with hm | hg2
          · rcases List.mem_append.1 hm with hm | hm
            · simp only [List.mem_map] at hm
              obtain ⟨f, _, hf⟩ := hm
              cases hf
              exact .file
            · exact fromFilesDirs_ok fs dirs p sections hs x n hm
          · simp [AList.get?] at hg2
theorem fromFilesDirs_ok (fs : Files V) : ∀ (dirs : List (String × DirTree)) (p : List String)
    (ns : List (String × Node V)), fromFilesDirs fs p dirs = .ok ns →
    ∀ x n, (x, n) ∈ ns → NodeOK (p ++ [x]) n
  | [] => by
    intro p ns h x n hm
    simp [fromFilesDirs] at h; subst h; simp at hm
  | (name, d) :: ds => by
    intro p ns h x n hm
    rw [fromFilesDirs] at h
    cases h1 : fromFiles fs (p ++ [name]) d with
    | error e => rw [h1] at h; simp at h
    | ok n1 =>
      rw [h1] at h
      cases h2 : fromFilesDirs fs p ds with
      | error e => rw [h2] at h; simp at h
      | ok ns' =>
        rw [h2] at h
        simp only [Except.ok.injEq] at h
        subst h
        rcases List.mem_cons.1 hm with hm | hm
        · cases hm; exact fromFiles_ok fs d _ _ h1
        · exact fromFilesDirs_ok fs ds p ns' h2 x n hm
end

/-- Invariant of all states: configs belong to their own files, and the local config is
empty. -/
structure CM.Good (s : CM V) : Prop where
  root : NodeOK [] s.root
  localConf : s.localConf = Conf.ofDict Dict.empty

theorem CM.load_good {fs : Files V} {rootName : String} {s : CM V} (h : CM.load fs rootName = .ok s) :
    s.Good := by
  unfold CM.load at h
  cases hf : fromFiles fs [] fs.tree with
  | error e => rw [hf] at h; simp at h
  | ok root =>
    rw [hf] at h
    simp at h
    subst h
    exact ⟨fromFiles_ok fs _ _ _ hf, rfl⟩

namespace CMM
open NodeOK

theorem mapConf_good {s : CM V} (h : s.Good) (p : List String) {g : Conf V → Conf V}
    (hg : ∀ c, (g c).file = c.file) : (s.modifyAt p (Node.mapConf g)).Good := by
  refine ⟨?_, h.localConf⟩
  apply NodeOK.modifyAt p h.root
  intro m _
  refine ⟨?_, ?_⟩
  · intro hm
    unfold Node.mapConf
    split
    · exact .conf (by rw [hg]; exact hm.conf_file)
    · obtain ⟨h1, h2, h3⟩ := hm.sect_inv
      exact .sect (by intro c' hc'; cases hc'; rw [hg]; exact h1 _ rfl) h2 h3
    · exact hm
  · intro c c' hm hc'
    subst hm
    simp [Node.mapConf] at hc'
    rw [← hc', hg]

theorem setAttr_good {s : CM V} (h : s.Good) (p : List String) (x : String) {v : Node V → Node V}
    (hv : ∀ cfg attrs map, s.walk p = .ok (.sect cfg attrs map) →
      NodeOK (p ++ [x]) (v (.sect cfg attrs map))) :
    (s.modifyAt p (fun parent => parent.setAttr x (v parent))).Good := by
  refine ⟨?_, h.localConf⟩
  apply NodeOK.modifyAt p h.root
  intro m hw
  refine ⟨?_, ?_⟩
  · intro hm
    cases m with
    | sect cfg attrs map => exact hm.set_attrs (hv _ _ _ hw)
    | _ => exact hm
  · intro c c' hm hc'
    subst hm
    simp [Node.setAttr] at hc'
    rw [hc']

theorem attrValue_ok {p : List String} {res nm x} {cfg : Option (Conf V)} {attrs map} {c : Conf V}
    (h : NodeOK p (.sect cfg attrs map))
    (hc : c.file = some (.item (p ++ [x])) ∨ Node.child res nm (.sect cfg attrs map) x = .ok (.conf c)) :
    NodeOK (p ++ [x]) (attrValue (.sect cfg attrs map) nm x c) := by
  obtain ⟨h1, h2, h3⟩ := h.sect_inv
  rcases hc with hc | hc
  · unfold attrValue
    split
    · split
      · exact .own
      · exact .conf hc
      · split
        · exact .own
        · exact .conf hc
    · exact .conf hc
  · simp only [Node.child] at hc
    split at hc
    · cases hc
    · unfold attrValue
      cases ha : AList.get? attrs x with
      | some n =>
        rw [ha] at hc
        by_cases hown : n = .own
        · subst hown
          cases cfg with
          | none => simp at hc
          | some c' => simp only [ha]; exact .own
        · have hn : n = .conf c := by
            cases n <;> simp_all
          subst hn
          cases cfg with
          | none => exact h2 _ _ ha
          | some c' => simp only [ha]; exact h2 _ _ ha
      | none =>
        rw [ha] at hc
        cases cfg with
        | none =>
          cases hm : AList.get? map x with
          | none => rw [hm] at hc; simp at hc
          | some n => rw [hm] at hc; simp at hc; subst hc; exact h3 _ _ hm
        | some c' =>
          simp only [ha] at hc ⊢
          by_cases hx : x = nm
          · rw [if_pos hx]; exact .own
          · rw [if_neg hx] at hc ⊢
            cases hm : AList.get? map x with
            | none => rw [hm] at hc; simp at hc
            | some n => rw [hm] at hc; simp at hc; subst hc; exact h3 _ _ hm

/-- The step from a section to the last name of a path. -/
theorem walk_last {s : CM V} {q : List String} {x : String} {n : Node V} {cfg attrs map}
    (hw : s.walk (q ++ [x]) = .ok n) (hq : s.walk q = .ok (.sect cfg attrs map)) :
    ∃ res, Node.child res (q.getLast?.getD s.rootName) (.sect cfg attrs map) x = .ok n := by
  unfold CM.walk at hw hq
  rw [Node.walk_append, hq] at hw
  simp only at hw
  split at hw
  · rename_i hq0
    subst hq0
    simp only [Node.walk, Except.ok.injEq] at hq
    rw [hq] at hw
    refine ⟨managerReserved, ?_⟩
    simp only [Node.walk] at hw
    split at hw
    · cases hw
    · rename_i hc; cases hw; exact hc
  · refine ⟨sectionReserved, ?_⟩
    simp only [Node.walk] at hw
    split at hw
    · cases hw
    · rename_i hc; cases hw; exact hc

theorem storeLoaded_good {s : CM V} (h : s.Good) {p : List String} (hp : p ≠ []) {c : Conf V}
    (hc : c.file = some (.item p) ∨ s.walk p = .ok (.conf c)) : (storeLoaded p c s).2.Good := by
  unfold storeLoaded
  dsimp only
  have hcat := List.dropLast_concat_getLastD hp
  apply setAttr_good h p.dropLast (p.getLast?.getD "")
  intro cfg attrs map hq
  have hs : NodeOK p.dropLast (.sect cfg attrs map) := by
    have := h.root.walk hq
    simp only [List.nil_append] at this
    rcases this with h | ⟨c, hc, _⟩
    · exact h
    · cases hc
  rcases hc with hc | hc
  · exact attrValue_ok (res := []) hs (.inl (by rw [hcat]; exact hc))
  · rw [← hcat] at hc
    obtain ⟨res, hch⟩ := walk_last hc hq
    exact attrValue_ok hs (.inr hch)

theorem getFunc_good {s : CM V} (h : s.Good) {p : List String} (hp : p ≠ []) :
    (getFuncOrSectionConfigs p s).2.Good := by
  unfold getFuncOrSectionConfigs
  rw [M.bind_ok (M.get_run s), M.bind_run, M.liftE_run]
  cases hw : s.walk p with
  | error e => exact h
  | ok n =>
    simp only
    cases n with
    | conf c =>
      rw [M.bind_run]
      exact storeLoaded_good h hp (.inr hw)
    | file l =>
      rw [M.bind_run]
      simp only [configOf]
      cases hl : s.fs.load l with
      | error e => exact h
      | ok c =>
        have hf := h.root.walk hw
        simp only [List.nil_append] at hf
        have hl' : l = .item p := by
          rcases hf with hf | ⟨c, hc, _⟩
          · exact hf.file_loc
          · cases hc
        subst hl'
        exact storeLoaded_good h hp (.inl (Files.load_file hl))
    | sect cfg a m => exact h
    | own => exact h
    | other => exact h

theorem getProjectOrLocal_good {s : CM V} (h : s.Good) {p : Option (List String)} (hp : p ≠ some []) :
    (getProjectOrLocal p s).2.Good := by
  cases p with
  | none => exact h
  | some p => exact getFunc_good h (by intro hh; exact hp (by rw [hh]))

/-- `m` keeps the invariant. -/
def KeepsGood {α : Type} (m : CMM V α) : Prop := M.Keeps (fun s s' : CM V => s.Good → s'.Good) m

namespace KeepsGood
variable {α β : Type}
theorem pure (a : α) : KeepsGood (V := V) (Pure.pure a) := M.Keeps.pure (fun _ h => h) a
theorem raise (e : PyErr) : KeepsGood (V := V) (α := α) (M.raise e) := M.Keeps.raise (fun _ h => h) e
theorem get : KeepsGood (V := V) M.get := M.Keeps.get (fun _ h => h)
theorem liftE (x : Except PyErr α) : KeepsGood (V := V) (M.liftE x) := M.Keeps.liftE (fun _ h => h) x
theorem bind {m : CMM V α} {f : α → CMM V β} (hm : KeepsGood m) (hf : ∀ a, KeepsGood (f a)) :
    KeepsGood (m >>= f) := M.Keeps.bind (fun _ _ _ h1 h2 h => h2 (h1 h)) hm hf
theorem tryCatch {m : CMM V α} {f : PyErr → CMM V α} (hm : KeepsGood m) (hf : ∀ a, KeepsGood (f a)) :
    KeepsGood (M.tryCatch m f) := M.Keeps.tryCatch (fun _ _ _ h1 h2 h => h2 (h1 h)) hm hf
end KeepsGood

theorem writeBack_good {p : List String} {g : Conf V → Conf V} (hg : ∀ c, (g c).file = c.file) :
    KeepsGood (writeBack (some p) g) := by
  intro s h
  exact mapConf_good h p hg

theorem update_local [BEq V] {s : CM V} (h : s.localConf.values = Dict.empty) (d : Option (Dict String V))
    (persist : Bool) (kw : Dict String V) : (update d none persist kw s).2 = s ∧
    ∀ r, (update d none persist kw s).1 = .ok r → r = (s.localConf, false) := by
  have hw : ∀ d, s.localConf.wouldUpdate d Dict.empty = false := by
    intro d
    cases hb : s.localConf.wouldUpdate d Dict.empty with
    | false => rfl
    | true =>
      obtain ⟨k, v, w, _, h2, _⟩ := (Conf.wouldUpdate_iff _ _ _).1 hb
      simp [h] at h2
  unfold update
  have hg : getProjectOrLocal none s = (.ok (some s.localConf), s) := rfl
  rw [M.bind_ok hg]
  dsimp only
  rw [M.bind_run, M.liftE_run]
  unfold determineWouldUpdate
  by_cases hc : Conf.clash determineReserved kw = true
  · rw [if_pos hc]; exact ⟨rfl, by intro r hr; cases hr⟩
  · rw [if_neg hc]
    simp only [hw]
    exact ⟨rfl, by intro r hr; cases hr; rfl⟩

theorem getFunc_keepsGood {p : List String} (hp : p ≠ []) : KeepsGood (V := V) (getFuncOrSectionConfigs p) :=
  fun _ h => getFunc_good h hp

theorem update_good [BEq V] (d : Option (Dict String V)) {p : Option (List String)}
    (hp : p ≠ some []) (persist : Bool) (kw : Dict String V) : KeepsGood (update d p persist kw) := by
  cases p with
  | none => intro s h; rw [(update_local (by rw [h.localConf]; rfl) d persist kw).1]; exact h
  | some p =>
    have hp' : p ≠ [] := by intro hh; exact hp (by rw [hh])
    refine KeepsGood.bind (getFunc_keepsGood hp') ?_
    intro r
    cases r with
    | none => exact KeepsGood.raise _
    | some c =>
      refine KeepsGood.bind (KeepsGood.liftE _) ?_
      intro would
      split
      · split
        · exact KeepsGood.raise _
        · exact KeepsGood.bind (writeBack_good (fun _ => rfl)) (fun _ => KeepsGood.pure _)
      · exact KeepsGood.pure _

theorem pop_good (key : String) {p : Option (List String)} (hp : p ≠ some []) :
    KeepsGood (V := V) (pop key p) := by
  cases p with
  | none =>
    intro s h
    unfold pop
    have hg : getProjectOrLocal none s = (.ok (some s.localConf), s) := rfl
    rw [M.bind_ok hg]
    dsimp only
    rw [show s.localConf.values.get? key = none by rw [h.localConf]; rfl]
    exact h
  | some p =>
    have hp' : p ≠ [] := by intro hh; exact hp (by rw [hh])
    refine KeepsGood.bind (getFunc_keepsGood hp') ?_
    intro r
    cases r with
    | none => exact KeepsGood.raise _
    | some c =>
      dsimp only
      cases c.values.get? key with
      | none => exact KeepsGood.raise _
      | some v => exact KeepsGood.bind (writeBack_good (fun _ => rfl)) (fun _ => KeepsGood.pure _)

theorem newConfig_good (c : Conf V) : KeepsGood (newConfigFromFile c) := by
  intro s h
  rw [newConfig_state]; exact h

theorem refresh_good [BEq V] {p : List String} (hp : p ≠ []) : KeepsGood (V := V) (refresh p) := by
  refine KeepsGood.bind (getFunc_keepsGood hp) ?_
  intro r
  cases r with
  | none => exact KeepsGood.raise _
  | some c =>
    refine KeepsGood.bind (newConfig_good c) ?_
    intro announced
    dsimp only
    split
    · exact KeepsGood.pure _
    · refine KeepsGood.bind (newConfig_good c) ?_
      intro new
      cases c.refresh new.values with
      | error e => exact KeepsGood.raise _
      | ok r => exact KeepsGood.bind (writeBack_good (fun _ => rfl)) (fun _ => KeepsGood.pure _)

theorem sectionConfigsFrom_good (p : List String) : ∀ (pre : List String), pre ≠ [] →
    KeepsGood (V := V) (sectionConfigsFrom pre p) := by
  induction p with
  | nil => intro pre _; exact KeepsGood.pure _
  | cons x p ih =>
    intro pre hpre
    cases p with
    | nil =>
      rw [sectionConfigsFrom]
      refine KeepsGood.bind KeepsGood.get ?_
      intro s
      refine KeepsGood.bind (KeepsGood.liftE _) ?_
      intro n
      cases n with
      | sect _ _ _ => exact KeepsGood.bind (getFunc_keepsGood hpre) (fun _ => KeepsGood.pure _)
      | conf _ => exact KeepsGood.pure _
      | file _ => exact KeepsGood.pure _
      | own => exact KeepsGood.raise _
      | other => exact KeepsGood.raise _
    | cons y p =>
      rw [sectionConfigsFrom]
      exact KeepsGood.bind (getFunc_keepsGood hpre)
        (fun _ => KeepsGood.bind (ih _ (by simp)) (fun _ => KeepsGood.pure _))

theorem get_good {p : List String} (hp : p ≠ []) : KeepsGood (V := V) (get p) := by
  refine KeepsGood.bind (getFunc_keepsGood hp) ?_
  intro config
  refine KeepsGood.bind KeepsGood.get ?_
  intro s
  refine KeepsGood.bind (sectionConfigsFrom_good p _ (by cases p <;> simp_all)) ?_
  intro others
  cases config with
  | none => exact KeepsGood.pure _
  | some c =>
    dsimp only
    split
    · exact KeepsGood.pure _
    · refine KeepsGood.bind KeepsGood.get ?_
      intro s'
      exact KeepsGood.bind (writeBack_good (fun c => foldl_applyLevel_file c _)) (fun _ => KeepsGood.pure _)

theorem append_ok {p : List String} {n v : Node V} {x : String} (h : NodeOK p n) (hv : NodeOK (p ++ [x]) v) :
    NodeOK p (n.append x v) := by
  cases n with
  | sect cfg attrs map => exact h.set_map hv
  | _ => exact h

theorem awc_single (res nm) (n v : Node V) (x : String) : appendWithCreate res nm n v [x] =
    match n with
    | .sect _ _ _ => .ok (n.append x v)
    | _ => .error .attributeError := by cases n <;> rfl

theorem awc_cons (res nm) (n v : Node V) (x y : String) (p : List String) :
    appendWithCreate res nm n v (x :: y :: p) = match n.child res nm x with
    | .ok n' => match appendWithCreate sectionReserved x n' v (y :: p) with
      | .error e => .error e
      | .ok n'' => .ok (n.modifyAt res nm [x] (fun _ => n''))
    | .error .keyError => match n with
      | .sect _ _ _ => match appendWithCreate sectionReserved x (.sect none [] []) v (y :: p) with
        | .error e => .error e
        | .ok n'' => .ok (n.append x n'')
      | _ => .error .attributeError
    | .error e => .error e := by cases n <;> rfl

theorem awc_other {res nm} {v : Node V} (x : String) (q : List String) (n' : Node V) :
    appendWithCreate res nm .other v (x :: q) ≠ .ok n' := by
  intro h
  cases q with
  | nil => rw [awc_single] at h; cases h
  | cons z q => rw [awc_cons] at h; simp [Node.child] at h

theorem appendWithCreate_conf {res nm} {c : Conf V} {v : Node V} {x : String} {q : List String} {n' : Node V}
    (h : appendWithCreate res nm (.conf c) v (x :: q) = .ok n') : False := by
  cases q with
  | nil => rw [awc_single] at h; cases h
  | cons y q =>
    rw [awc_cons] at h
    simp only [Node.child] at h
    cases hg : c.getattr x with
    | ok u =>
      rw [hg] at h
      simp only at h
      split at h
      · cases h
      · rename_i hh; exact awc_other _ _ _ hh
    | error e =>
      rw [hg] at h
      cases e <;> cases h

theorem appendWithCreate_ok (v : Node V) (q : List String) : ∀ (p : List String) (res nm) (n n' : Node V),
    NodeOK p n → NodeOK (p ++ q) v → appendWithCreate res nm n v q = .ok n' → NodeOK p n' := by
  induction q with
  | nil => intro p res nm n n' h _ ha; cases ha; exact h
  | cons x q ih =>
    intro p res nm n n' h hv ha
    cases q with
    | nil =>
      rw [awc_single] at ha
      split at ha
      · cases ha; exact append_ok h hv
      · cases ha
    | cons y q =>
      rw [awc_cons] at ha
      have hv' : NodeOK (p ++ [x] ++ (y :: q)) v := by simpa using hv
      cases hc : n.child res nm x with
      | ok m =>
        rw [hc] at ha
        simp only at ha
        split at ha
        · cases ha
        · rename_i m' hm'
          cases ha
          apply NodeOK.modifyAt [x] h
          intro m2 hw
          have hm2 : m2 = m := by
            simp only [Node.walk, hc] at hw
            cases hw; rfl
          subst hm2
          rcases h.child hc with hok | ⟨c, hcc, hf⟩
          · refine ⟨fun _ => ih _ _ _ _ _ hok hv' hm', ?_⟩
            intro c c' hmc hmc'
            subst hmc
            -- a config has no sections below
            exfalso
            have := appendWithCreate_conf hm'
            exact this
          · subst hcc
            exact (appendWithCreate_conf hm').elim
      | error e =>
        rw [hc] at ha
        cases e with
        | keyError =>
          simp only at ha
          split at ha
          · split at ha
            · cases ha
            · rename_i m' hm'
              cases ha
              apply append_ok h
              exact ih _ _ _ _ _ (.sect (by simp) (by simp [AList.get?]) (by simp [AList.get?])) hv' hm'
          · cases ha
        | _ => cases ha

theorem getDefault_ok {s : CM V} {p : List String} {create : Bool} {n : Node V}
    (h : getDefault s p create = .ok n) : NodeOK p n := by
  have hload : ∀ n, (s.fs.load (.item p)).map Node.conf = .ok n → NodeOK p n := by
    intro n h
    cases hl : s.fs.load (.item p) with
    | error e => rw [hl] at h; cases h
    | ok c => rw [hl] at h; cases h; exact .conf (Files.load_file hl)
  unfold getDefault at h
  split at h
  · cases h
  · split at h
    · exact fromFiles_ok _ _ _ _ h
    · cases h; exact .sect (by simp) (by simp [AList.get?]) (by simp [AList.get?])
  · exact hload n h
  · exact hload n h
  · cases h

theorem setFunc_good {p : List String} (hp : p ≠ []) {v : Node V} (hv : NodeOK p v) (create : Bool) :
    KeepsGood (setFuncOrSectionConfig p v create) := by
  intro s h
  unfold setFuncOrSectionConfig
  split
  · split
    · rename_i root hr
      exact ⟨appendWithCreate_ok v p [] _ _ _ _ h.root (by simpa using hv) hr, h.localConf⟩
    · exact h
  · split
    · exact h
    · apply setAttr_good h p.dropLast (p.getLast?.getD "")
      intro _ _ _ _
      rw [List.dropLast_concat_getLastD hp]; exact hv

theorem set_good [BEq V] {p : List String} (hp : p ≠ []) {v : Node V} (hv : NodeOK p v) (create : Bool) :
    KeepsGood (set p v create) := by
  unfold set
  refine KeepsGood.bind (KeepsGood.tryCatch (getFunc_keepsGood hp) ?_) ?_
  · intro e
    split
    · exact KeepsGood.pure _
    · exact KeepsGood.raise _
  · intro current
    cases current with
    | none => exact KeepsGood.bind (setFunc_good hp hv create) (fun _ => KeepsGood.pure _)
    | some c =>
      cases v with
      | conf v =>
        refine KeepsGood.bind (KeepsGood.liftE _) ?_
        intro would
        split
        · exact KeepsGood.bind (setFunc_good hp hv create) (fun _ => KeepsGood.pure _)
        · exact KeepsGood.pure _
      | _ => exact KeepsGood.raise _

theorem reset_good [BEq V] {p : Option (List String)} (hp : p ≠ some []) (create : Bool) :
    KeepsGood (V := V) (reset p create) := by
  intro s h
  cases p with
  | none => exact ⟨h.root, rfl⟩
  | some p =>
    have hp' : p ≠ [] := by intro hh; exact hp (by rw [hh])
    show ((M.get >>= fun s => M.liftE (getDefault s p create) >>= fun value => set p value create) s).2.Good
    rw [M.bind_ok (M.get_run s), M.bind_run, M.liftE_run]
    cases hd : getDefault s p create with
    | error e => exact h
    | ok v => exact set_good hp' (getDefault_ok hd) create s h

end CMM

theorem CM.step_good [BEq V] {s : CM V} (h : s.Good) (op : CMOp V) (hv : op.Valid) : (s.step op).Good := by
  cases op with
  | update d p persist kw =>
    refine CMM.update_good d ?_ persist kw s h
    intro hp; subst hp; exact hv rfl
  | refresh p => exact CMM.refresh_good hv s h
  | get p => exact CMM.get_good hv s h
  | reset p create =>
    refine CMM.reset_good ?_ create s h
    intro hp; subst hp; exact hv rfl
  | pop key p =>
    refine CMM.pop_good key ?_ s h
    intro hp; subst hp; exact hv rfl
  | edit fs => exact ⟨h.root, h.localConf⟩

theorem CM.foldl_good [BEq V] (ops : List (CMOp V)) {s : CM V} (h : s.Good) (hv : ∀ op ∈ ops, op.Valid) :
    (ops.foldl CM.step s).Good := by
  induction ops generalizing s with
  | nil => exact h
  | cons op ops ih =>
    exact ih (CM.step_good h op (hv op List.mem_cons_self)) (fun o ho => hv o (List.mem_cons_of_mem _ ho))

theorem CM.Reachable.good [BEq V] {s : CM V} (h : s.Reachable) : s.Good := by
  obtain ⟨fs, rootName, s0, ops, hl, hv, rfl⟩ := h
  exact CM.foldl_good ops (CM.load_good hl) hv

theorem CM.Reachable.step [BEq V] {s : CM V} (h : s.Reachable) (op : CMOp V) (hv : op.Valid) :
    (s.step op).Reachable := by
  obtain ⟨fs, rootName, s0, ops, hl, hvs, rfl⟩ := h
  refine ⟨fs, rootName, s0, ops ++ [op], hl, ?_, by simp⟩
  intro o ho
  rcases List.mem_append.1 ho with ho | ho
  · exact hvs o ho
  · simp at ho; subst ho; exact hv

theorem Node.walk_plain_found {res nm} {n m : Node V} {p q : List String} (h : NodeOK p n)
    (hq : PlainPath nm q) (hw : n.walk res nm q = .ok m) : NodeOK (p ++ q) m := by
  induction q generalizing p n res nm with
  | nil => cases hw; simpa using h
  | cons x q ih =>
    rw [Node.walk] at hw
    cases hc : n.child res nm x with
    | error e => rw [hc] at hw; cases hw
    | ok n' =>
      rw [hc] at hw
      have hn' : NodeOK (p ++ [x]) n' := by
        cases n with
        | sect cfg attrs map =>
          rw [Node.child_sect _ _ _ _ _ hq.1] at hc
          obtain ⟨h1, h2, h3⟩ := h.sect_inv
          split at hc
          · cases hc; exact .other
          · split at hc
            · cases hc
            · rename_i ha; cases hc; exact h2 _ _ ha
            · split at hc
              · rename_i hm; cases hc; exact h3 _ _ hm
              · cases hc
        | conf c =>
          simp only [Node.child] at hc
          split at hc
          · cases hc; exact .other
          · cases hc
        | _ => cases hc
      have := ih hn' hq.2 hw
      simpa using this

theorem CM.Good.ownFiles {s : CM V} (h : s.Good) : OwnFiles s.view := by
  refine ⟨?_, ?_, ?_, ?_⟩
  · intro p l hs hp
    have := Node.walk_plain_found h.root hp (CM.walk_of_slot_file hs)
    simpa using this.file_loc
  · intro p c hs hp
    have := Node.walk_plain_found h.root hp (CM.walk_of_slot_conf hs)
    simpa using this.conf_file
  · intro p c hs hp
    obtain ⟨attrs, map, hw⟩ := CM.walk_of_slot_sect hs
    have := Node.walk_plain_found h.root hp hw
    simpa using this.sect_inv.1 c rfl
  · show s.localConf.file = none
    rw [h.localConf]; rfl

end Verif.Model
