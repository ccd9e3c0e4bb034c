import Verif.Props.Main

/-
Property theorems about attribute access on the manager: C25.
-/

namespace Verif.Model
open Verif.Py

variable {V : Type}

theorem Reg.walk_prefix {r : Reg V} {x : String} (p : List String) : ∀ (res : List String) (n : Reg V),
    n.walk res (p ++ [x]) = .ok r → ∃ b items, n.walk res p = .ok (.coll b items) := by
  induction p with
  | nil =>
    intro res n h
    cases n with
    | coll b items => exact ⟨b, items, rfl⟩
    | item c => cases h
    | other => cases h
  | cons y p ih =>
    intro res n h
    rw [List.cons_append, Reg.walk] at h
    rw [Reg.walk]
    cases ha : Reg.attr res n y with
    | error e => rw [ha] at h; cases h
    | ok m => rw [ha] at h; exact ih _ _ h

/-- Everything found is inside a section. -/
theorem Registry.lookup_prefix {g : Registry V} {r : Reg V} {p : List String} {x : String} (hp : p ≠ [])
    (h : g.lookup (p ++ [x]) = .ok r) : ∃ b items, g.lookup p = .ok (.coll b items) := by
  cases p with
  | nil => exact absurd rfl hp
  | cons y rest =>
    rw [List.cons_append] at h
    unfold Registry.lookup at h ⊢
    simp only at h ⊢
    cases hf : g.specific.find? (fun e => e.1 = y) with
    | some e =>
      obtain ⟨z, reg⟩ := e
      simp only [hf] at h ⊢
      cases rest with
      | nil =>
        obtain ⟨b, items, hw⟩ := Reg.walk_prefix [] _ _ h
        rw [Reg.walk] at hw
        exact ⟨b, items, hw⟩
      | cons w ws =>
        simp only [List.cons_append] at h
        exact Reg.walk_prefix (w :: ws) _ _ h
    | none =>
      simp only [hf] at h ⊢
      have hw : ∃ r, g.general.walk registrarReserved (y :: rest ++ [x]) = .ok r := by
        cases hw : g.general.walk registrarReserved (y :: (rest ++ [x])) with
        | error e => rw [hw] at h; cases h
        | ok m => exact ⟨m, hw⟩
      obtain ⟨r', hw⟩ := hw
      obtain ⟨b, items, hc⟩ := Reg.walk_prefix (y :: rest) _ _ hw
      exact ⟨b, items, by rw [hc]⟩

theorem Registry.lookup_prefixes {g : Registry V} {r : Reg V} {p q : List String} (hp : p ≠ []) (hq : q ≠ [])
    (h : g.lookup (p ++ q) = .ok r) : ∃ b items, g.lookup p = .ok (.coll b items) := by
  have : ∀ (q' : List String) (r : Reg V), q' ≠ [] → g.lookup (p ++ q'.reverse) = .ok r →
      ∃ b items, g.lookup p = .ok (.coll b items) := by
    intro q'
    induction q' with
    | nil => intro _ h; exact absurd rfl h
    | cons x q' ih =>
      intro r _ h
      rw [List.reverse_cons, ← List.append_assoc] at h
      cases q' with
      | nil =>
        rw [List.reverse_nil, List.append_nil] at h
        exact Registry.lookup_prefix hp h
      | cons y ys =>
        obtain ⟨b, items, h'⟩ := Registry.lookup_prefix (by simp [hp]) h
        exact ih _ (by simp) h'
  exact this q.reverse r (by simpa using hq) (by rw [List.reverse_reverse]; exact h)

end Verif.Model

namespace Verif.Props
open Verif.Py Verif.Model

variable {V : Type}

/-! ## Specification -/

/-- A registered item whose path can be written with dots: no name in it has a dot or is the name of
an attribute that the manager or the runner has itself. -/
structure AttrItem (g : Registry V) (p : List String) (k : Callable V) : Prop where
  sections : Sections p
  registered : g.lookup p = .ok (.item k)
  manager : p.headD "" ∉ managerAttrs
  runner : ∀ x ∈ p, x ∉ runnerAttrs

/-- Histories of calls and of attribute accesses that reach a registered item. -/
def ReachesItems (g : Registry V) (ops : List (AOp V)) : Prop :=
  ∀ op ∈ ops, match op with
    | .op o => o.Valid
    | .access xs => ∃ k, AttrItem g xs k

/-- The result of `get`, as the result of an attribute access. -/
def asAttr (x : Except PyErr (RM.GetRes V)) : Except PyErr (AttrRes V) :=
  match x with
  | .ok r => .ok (.got r)
  | .error e => .error e

/-! ### Lemmas -/

theorem join_snoc {q : List String} (hq : q ≠ []) (x : String) : join '.' q ++ "." ++ x = join '.' (q ++ [x]) := by
  unfold join
  rw [List.map_append, joinL_append '.' (by simpa using hq) (by simp)]
  simp only [List.map_cons, List.map_nil, joinL]
  apply String.toList_injective
  simp

theorem missing_coll {s : AS V} {x : String} {b : Bool} {items : List (String × Reg V)}
    (h : s.rs.reg.lookup (split '.' (s.full ++ x)) = .ok (.coll b items)) :
    AM.missing x s = (.ok .runner, ⟨s.rs, s.full ++ x ++ "."⟩) := by
  unfold AM.missing
  rw [M.bind_ok (show AM.setFull _ s = (.ok (), ⟨s.rs, s.full ++ x⟩) from rfl), M.bind_ok (M.get_run _)]
  simp only [h]
  rfl

theorem missing_item {s : AS V} {x : String} {k : Callable V}
    (h : s.rs.reg.lookup (split '.' (s.full ++ x)) = .ok (.item k)) :
    AM.missing x s = (asAttr (RM.get (split '.' (s.full ++ x)) s.rs).1,
      ⟨(RM.get (split '.' (s.full ++ x)) s.rs).2, ""⟩) := by
  unfold AM.missing
  rw [M.bind_ok (show AM.setFull _ s = (.ok (), ⟨s.rs, s.full ++ x⟩) from rfl), M.bind_ok (M.get_run _)]
  simp only [h]
  rw [M.bind_ok (show AM.setFull (fun _ => "") ⟨s.rs, s.full ++ x⟩ = (.ok (), ⟨s.rs, ""⟩) from rfl), M.bind_run]
  unfold AM.liftR
  simp only
  cases RM.get (split '.' (s.full ++ x)) s.rs with
  | mk y t => cases y <;> rfl

theorem runnerAttr_missing {x : String} (h : x ∉ runnerAttrs) : AM.runnerAttr (V := V) x = AM.missing x := by
  unfold AM.runnerAttr
  rw [if_neg h]

theorem accessFrom_item {g : Registry V} {k : Callable V} (rest : List String) (hne : rest ≠ []) :
    ∀ (q : List String) (s : AS V), q ≠ [] → s.rs.reg = g → s.full = join '.' q ++ "." →
    (∀ x ∈ q ++ rest, hasChar '.' x = false) → (∀ x ∈ rest, x ∉ runnerAttrs) →
    g.lookup (q ++ rest) = .ok (.item k) →
    AM.accessFrom .runner rest s = (asAttr (RM.get (q ++ rest) s.rs).1, ⟨(RM.get (q ++ rest) s.rs).2, ""⟩) := by
  induction rest with
  | nil => exact absurd rfl hne
  | cons x rest ih =>
    intro q s hq hg hf hd hr hl
    have hsplit : split '.' (s.full ++ x) = q ++ [x] := by
      rw [hf, join_snoc hq, split_join '.' (by simp)]
      intro y hy
      apply hd y
      rcases List.mem_append.1 hy with h | h
      · exact List.mem_append_left _ h
      · rw [List.mem_singleton] at h
        subst h
        simp
    have hx : x ∉ runnerAttrs := hr x List.mem_cons_self
    show (AM.runnerAttr x >>= fun r => AM.accessFrom r rest) s = _
    rw [runnerAttr_missing hx]
    cases rest with
    | nil =>
      rw [← hg] at hl
      rw [M.bind_run, missing_item (k := k) (by rw [hsplit]; exact hl), hsplit]
      cases RM.get (q ++ [x]) s.rs with
      | mk y t => cases y <;> rfl
    | cons y ys =>
      have heq : q ++ x :: y :: ys = (q ++ [x]) ++ (y :: ys) := by simp
      obtain ⟨b, items, hc⟩ := Registry.lookup_prefixes (p := q ++ [x]) (q := y :: ys) (by simp) (by simp)
        (by rw [← heq]; exact hl)
      rw [← hg] at hc
      rw [M.bind_ok (missing_coll (by rw [hsplit]; exact hc)), heq]
      exact ih (by simp) (q ++ [x]) ⟨s.rs, s.full ++ x ++ "."⟩ (by simp) hg
        (by show s.full ++ x ++ "." = _; rw [hf, join_snoc hq])
        (by rw [← heq]; exact hd) (fun z hz => hr z (List.mem_cons_of_mem _ hz)) (by rw [← heq]; exact hl)

theorem split_plain {x : String} (h : hasChar '.' x = false) : split '.' x = [x] := by
  have := split_join '.' (xs := [x]) (by simp) (by simpa using h)
  rwa [show join '.' [x] = x by simp [join, joinL]] at this

/-! ## C25 -/

/-- C25 when no attribute access is under way: walking `pm.a.b.c` does and returns exactly what
`pm.get('a.b.c')` does and returns, and leaves no access under way. -/
theorem C25_access_partial (s : AS V) (hclean : s.full = "") (p : List String) (k : Callable V)
    (hp : AttrItem s.rs.reg p k) :
    AM.access p s = (asAttr (RM.get p s.rs).1, ⟨(RM.get p s.rs).2, ""⟩) := by
  obtain ⟨⟨hne, hdot⟩, hl, hm, hr⟩ := hp
  cases p with
  | nil => exact absurd rfl hne
  | cons x rest =>
    have hx := hdot x List.mem_cons_self
    have hsplit : split '.' (s.full ++ x) = [x] := by
      rw [hclean, String.empty_append]
      exact split_plain hx
    show (AM.managerAttr x >>= fun r => AM.accessFrom r rest) s = _
    unfold AM.managerAttr
    rw [if_neg (by simpa using hm), runnerAttr_missing (hr x List.mem_cons_self)]
    cases rest with
    | nil =>
      rw [M.bind_run, missing_item (k := k) (by rw [hsplit]; exact hl), hsplit]
      cases RM.get [x] s.rs with
      | mk y t => cases y <;> rfl
    | cons y ys =>
      obtain ⟨b, items, hc⟩ := Registry.lookup_prefixes (p := [x]) (q := y :: ys) (by simp) (by simp) hl
      rw [M.bind_ok (missing_coll (by rw [hsplit]; exact hc))]
      exact accessFrom_item (g := s.rs.reg) (y :: ys) (by simp) [x] ⟨s.rs, s.full ++ x ++ "."⟩ (by simp) rfl
        (by show s.full ++ x ++ "." = _; rw [hclean]; simp [join, joinL])
        hdot (fun z hz => hr z (List.mem_cons_of_mem _ hz)) hl

theorem reaches_clean [BEq V] (ops : List (AOp V)) : ∀ (s : AS V), s.full = "" →
    ReachesItems s.rs.reg ops → (ops.foldl AS.step s).full = "" ∧ (ops.foldl AS.step s).rs.reg = s.rs.reg := by
  induction ops with
  | nil => intro s h _; exact ⟨h, rfl⟩
  | cons op ops ih =>
    intro s h hops
    have hop := hops op List.mem_cons_self
    have hstep : (s.step op).full = "" ∧ (s.step op).rs.reg = s.rs.reg := by
      cases op with
      | op o => exact ⟨h, (RS.step_evolves s.rs hop).reg⟩
      | access xs =>
        obtain ⟨k, hk⟩ := hop
        unfold AS.step
        simp only
        rw [C25_access_partial s h xs k hk]
        exact ⟨rfl, (RM.evo_get' hk.sections.ne s.rs).reg⟩
    obtain ⟨h1, h2⟩ := ih (s.step op) hstep.1 (by rw [hstep.2]; exact fun o ho => hops o (List.mem_cons_of_mem _ ho))
    exact ⟨h1, h2.trans hstep.2⟩

/-- C25 for every history of calls and of attribute accesses that reach items (whether the item could
be created or not): the next access to an item does and returns what `get` does and returns.
Missing: earlier accesses that failed or stopped at a section, for which it is false, see
`C25_failed_access_violated` and `C25_section_access_violated`. -/
theorem C25_history_partial [BEq V] (s : AS V) (hclean : s.full = "") (ops : List (AOp V))
    (hops : ReachesItems s.rs.reg ops) (p : List String) (k : Callable V) (hp : AttrItem s.rs.reg p k) :
    (AM.access p (ops.foldl AS.step s)).1 = asAttr (RM.get p (ops.foldl AS.step s).rs).1 ∧
    (AM.access p (ops.foldl AS.step s)).2.rs = (RM.get p (ops.foldl AS.step s).rs).2 := by
  obtain ⟨h1, h2⟩ := reaches_clean ops s hclean hops
  have := C25_access_partial (ops.foldl AS.step s) h1 p k (by rw [h2]; exact hp)
  rw [this]
  exact ⟨rfl, rfl⟩

theorem demoAttrItem : AttrItem (demoRunner demoFunc).reg demoPath demoFunc :=
  ⟨⟨by decide, by decide⟩, rfl, by decide, by decide⟩

example : ReachesItems (demoRunner demoFunc).reg
    [.access demoPath, .op (demoUpdate [("a", 7)]), .op (.run ["nosuch"]), .access demoPath] := by
  intro op hop
  simp only [List.mem_cons, List.not_mem_nil, or_false] at hop
  rcases hop with rfl | rfl | rfl | rfl
  · exact ⟨_, demoAttrItem⟩
  · simp [ROp.Valid, demoUpdate, demoPath]
  · simp [ROp.Valid]
  · exact ⟨_, demoAttrItem⟩

/-- What a failed access does: after `pm.x` failed for a name that is not registered, `pm.y` means
`pm.xy`. -/
theorem C25_after_failed_access (s : AS V) (hclean : s.full = "") (x : String) (hm : x ∉ managerAttrs)
    (hr : x ∉ runnerAttrs) (hl : s.rs.reg.lookup (split '.' x) = .error .attributeError) :
    AM.access [x] s = (.error .attributeError, ⟨s.rs, x⟩) ∧
    ∀ y ys, y ∉ managerAttrs → y ∉ runnerAttrs → x ++ y ∉ managerAttrs → x ++ y ∉ runnerAttrs →
      AM.access (y :: ys) (AM.access [x] s).2 = AM.access ((x ++ y) :: ys) s := by
  have h1 : AM.access [x] s = (.error .attributeError, ⟨s.rs, x⟩) := by
    show (AM.managerAttr x >>= fun r => AM.accessFrom r []) s = _
    unfold AM.managerAttr
    rw [if_neg hm, runnerAttr_missing hr]
    unfold AM.missing
    have hf : (AM.setFull (fun f => f ++ x) : AM V Unit) s = (.ok (), ⟨s.rs, x⟩) := by
      show (Except.ok (), (⟨s.rs, s.full ++ x⟩ : AS V)) = _
      rw [hclean, String.empty_append]
    have : (do
      AM.setFull (fun f => f ++ x)
      let s ← M.get
      match s.rs.reg.lookup (split '.' s.full) with
        | .error .keyError => do
          AM.setFull (fun _ => "")
          M.raise .keyError
        | .error e => M.raise e
        | .ok (.coll _ _) => do
          AM.setFull (fun f => f ++ ".")
          return .runner
        | .ok _ => do
          let full := s.full
          AM.setFull (fun _ => "")
          return .got (← AM.liftR (RM.get (split '.' full))) : AM V (AttrRes V)) s =
        (.error .attributeError, ⟨s.rs, x⟩) := by
      rw [M.bind_ok hf, M.bind_ok (M.get_run _)]
      simp only [hl]
      rfl
    exact M.bind_error this
  refine ⟨h1, ?_⟩
  intro y ys hy1 hy2 hxy1 hxy2
  rw [h1]
  show (AM.managerAttr y >>= fun r => AM.accessFrom r ys) _ = (AM.managerAttr (x ++ y) >>= fun r => AM.accessFrom r ys) s
  unfold AM.managerAttr
  rw [if_neg hy1, if_neg hxy1, runnerAttr_missing hy2, runnerAttr_missing hxy2, M.bind_run, M.bind_run]
  have : AM.missing (V := V) y ⟨s.rs, x⟩ = AM.missing (x ++ y) s := by
    unfold AM.missing
    rw [M.bind_ok (show (AM.setFull (fun f => f ++ y) : AM V Unit) ⟨s.rs, x⟩ = (.ok (), ⟨s.rs, x ++ y⟩) from rfl),
      M.bind_ok (show (AM.setFull (fun f => f ++ (x ++ y)) : AM V Unit) s = (.ok (), ⟨s.rs, x ++ y⟩) by
        show (Except.ok (), (⟨s.rs, s.full ++ (x ++ y)⟩ : AS V)) = _
        rw [hclean, String.empty_append])]
  rw [this]

/-- Whether an attribute access reaches an item. -/
def reaches (xs : List String) (s : AS Nat) : Bool :=
  match (AM.access xs s).1 with
  | .ok (.got _) => true
  | _ => false

/-- C25 fails after a failed access: an access to a name that does not exist makes the next access
to an existing item fail. -/
theorem C25_failed_access_violated :
    reaches demoPath ⟨demoRunner demoFunc, ""⟩ = true ∧
    reaches demoPath (AS.step ⟨demoRunner demoFunc, ""⟩ (.access ["nosuch"])) = false ∧
    (RM.get demoPath (AS.step ⟨demoRunner demoFunc, ""⟩ (.access ["nosuch"])).rs).1.toOption.isSome = true := by
  decide +kernel

/-- C25 fails after an access to a section, though that one succeeds. -/
theorem C25_section_access_violated :
    (match (AM.access ["main"] ⟨demoRunner demoFunc, ""⟩).1 with
      | .ok .runner => true
      | _ => false) = true ∧
    reaches demoPath (AS.step ⟨demoRunner demoFunc, ""⟩ (.access ["main"])) = false ∧
    (RM.get demoPath (AS.step ⟨demoRunner demoFunc, ""⟩ (.access ["main"])).rs).1.toOption.isSome = true := by
  decide +kernel

end Verif.Props
