import Verif.Lemmas.RunnerItem

/-
Lookups below a section, and why the nesting bound of `runSection` and `getSection` is never
reached.
-/

namespace Verif.Model
open Verif.Py
variable {V : Type}

namespace Reg

/-- Walking one more step. -/
theorem walk_snoc (res : List String) (n r : Reg V) (p : List String) (x : String) (h : n.walk res p = .ok r) :
    n.walk res (p ++ [x]) = attr (if p = [] then res else collectionReserved) r x := by
  induction p generalizing res n with
  | nil =>
    rw [walk] at h
    cases h
    rw [List.nil_append, walk, if_pos rfl]
    cases attr res r x with
    | error e => rfl
    | ok n' => rfl
  | cons y p ih =>
    rw [walk] at h
    rw [List.cons_append, walk, if_neg (by simp)]
    cases ha : attr res n y with
    | error e => rw [ha] at h; cases h
    | ok n' =>
      rw [ha] at h
      simp only at h ⊢
      rw [ih _ _ h]
      simp

theorem get?_nameDict (items : List (String × Reg V)) (x : String) :
    AList.get? (nameDict items) x = AList.get? items.reverse x := by
  have : ∀ (items acc : List (String × Reg V)),
      AList.get? (items.foldl (fun (m : List (String × Reg V)) e => AList.set m e.1 e.2) acc) x =
        (AList.get? items.reverse x).or (AList.get? acc x) := by
    intro items
    induction items with
    | nil => intro acc; simp [AList.get?]
    | cons e items ih =>
      intro acc
      rw [List.foldl_cons, ih, AList.get?_set]
      have happ : ∀ (l : List (String × Reg V)), AList.get? (l ++ [e]) x =
          (AList.get? l x).or (if e.1 = x then some e.2 else none) := by
        intro l
        induction l with
        | nil => obtain ⟨y, v⟩ := e; simp [AList.get?]
        | cons f l ihl =>
          obtain ⟨y, v⟩ := f
          simp only [List.cons_append, AList.get?]
          split
          · rfl
          · exact ihl
      rw [List.reverse_cons, happ, Option.or_assoc]
      split <;> simp
  have h := this items []
  simpa [nameDict, AList.get?] using h

/-- With different names the name map has every entry. -/
theorem get?_nameDict_of_mem {items : List (String × Reg V)} (hn : (items.map Prod.fst).Nodup) {x : String}
    {r : Reg V} (h : (x, r) ∈ items) : AList.get? (nameDict items) x = some r := by
  rw [get?_nameDict]
  apply AList.get?_of_mem
  · rw [List.map_reverse, List.Nodup, List.pairwise_reverse]; exact hn.imp Ne.symm
  · simpa using h

theorem mem_of_nameDict {items : List (String × Reg V)} {x : String} {r : Reg V}
    (h : AList.get? (nameDict items) x = some r) : (x, r) ∈ items := by
  rw [get?_nameDict] at h
  simpa using AList.mem_of_get? h

theorem depth_of_mem {items : List (String × Reg V)} {x : String} {r : Reg V} (h : (x, r) ∈ items) :
    r.depth ≤ depthItems items := by
  induction items with
  | nil => cases h
  | cons e items ih =>
    obtain ⟨y, n⟩ := e
    rw [depthItems]
    rcases List.mem_cons.1 h with h | h
    · cases h; exact Nat.le_max_left _ _
    · exact Nat.le_trans (ih h) (Nat.le_max_right _ _)

/-- What an attribute of a collection is. -/
theorem attr_coll {res : List String} {b : Bool} {items : List (String × Reg V)} {x : String} {r : Reg V}
    (h : attr res (.coll b items) x = .ok r) : r = .other ∨ (x, r) ∈ items := by
  rw [attr] at h
  split at h
  · cases h; exact .inl rfl
  · cases hg : AList.get? (nameDict items) x with
    | none => rw [hg] at h; cases h
    | some n => rw [hg] at h; cases h; exact .inr (mem_of_nameDict hg)

theorem walk_depth {res : List String} {n r : Reg V} {p : List String} (h : n.walk res p = .ok r) :
    r.depth ≤ n.depth := by
  induction p generalizing res n with
  | nil => rw [walk] at h; cases h; exact Nat.le_refl _
  | cons y p ih =>
    rw [walk] at h
    cases ha : attr res n y with
    | error e => rw [ha] at h; cases h
    | ok n' =>
      rw [ha] at h
      refine Nat.le_trans (ih h) ?_
      cases n with
      | coll b items =>
        rcases attr_coll ha with h' | h'
        · subst h'; simp [depth]
        · rw [depth]; exact Nat.le_succ_of_le (depth_of_mem h')
      | item c => cases ha
      | other => cases ha

end Reg

namespace Registry

theorem lookup_depth {r : Registry V} {p : List String} {n : Reg V} (h : r.lookup p = .ok n) :
    n.depth ≤ r.depth := by
  unfold lookup at h
  cases p with
  | nil => cases h
  | cons x rest =>
    simp only at h
    cases hf : r.specific.find? (fun e => e.1 = x) with
    | some e =>
      obtain ⟨y, reg⟩ := e
      have hm : (y, reg) ∈ r.specific := List.mem_of_find?_eq_some hf
      have hd : reg.depth ≤ r.depth := Nat.le_trans (Reg.depth_of_mem hm) (Nat.le_max_right _ _)
      rw [hf] at h
      cases rest with
      | nil => cases h; exact hd
      | cons z zs => exact Nat.le_trans (Reg.walk_depth h) hd
    | none =>
      rw [hf] at h
      simp only at h
      cases hw : r.general.walk registrarReserved (x :: rest) with
      | error e => rw [hw] at h; cases h
      | ok m =>
        rw [hw] at h
        have hm : m.depth ≤ r.depth := Nat.le_trans (Reg.walk_depth hw) (Nat.le_max_left _ _)
        cases m with
        | item c => cases h; exact hm
        | coll b items => cases h; exact hm
        | other => cases h

/-- A lookup one step below a found section. -/
theorem lookup_snoc {r : Registry V} {p : List String} {n : Reg V} (h : r.lookup p = .ok n) (x : String) :
    ∃ res, (res = registrarReserved ∨ res = collectionReserved) ∧
      (r.lookup (p ++ [x]) = Reg.attr res n x ∨
        (Reg.attr res n x = .ok .other ∧ r.lookup (p ++ [x]) = .error .attributeError)) := by
  unfold lookup at h ⊢
  cases p with
  | nil => cases h
  | cons y rest =>
    simp only [List.cons_append] at h ⊢
    cases hf : r.specific.find? (fun e => e.1 = y) with
    | some e =>
      obtain ⟨z, reg⟩ := e
      rw [hf] at h
      simp only at h ⊢
      cases rest with
      | nil =>
        cases h
        refine ⟨registrarReserved, .inl rfl, .inl ?_⟩
        show Reg.walk registrarReserved n ([] ++ [x]) = _
        rw [Reg.walk_snoc _ _ n [] x rfl]
        rfl
      | cons w ws =>
        refine ⟨collectionReserved, .inr rfl, .inl ?_⟩
        simp only [List.cons_append]
        have := Reg.walk_snoc registrarReserved reg n (w :: ws) x h
        simpa using this
    | none =>
      rw [hf] at h
      simp only at h ⊢
      have hw : r.general.walk registrarReserved (y :: rest) = .ok n := by
        cases hw : r.general.walk registrarReserved (y :: rest) with
        | error e => rw [hw] at h; cases h
        | ok m =>
          rw [hw] at h
          cases m with
          | item c => exact h
          | coll b items => exact h
          | other => cases h
      refine ⟨collectionReserved, .inr rfl, ?_⟩
      have := Reg.walk_snoc registrarReserved r.general n (y :: rest) x hw
      rw [if_neg (by simp), List.cons_append] at this
      rw [this]
      cases ha : Reg.attr collectionReserved n x with
      | error e => exact .inl rfl
      | ok m =>
        cases m with
        | item c => exact .inl rfl
        | coll b items => exact .inl rfl
        | other => exact .inr ⟨rfl, rfl⟩

/-- Below a section there is a shallower section, an item, or something else. -/
theorem lookup_snoc_depth {r : Registry V} {p : List String} {b b' : Bool} {items items' : List (String × Reg V)}
    (h : r.lookup p = .ok (.coll b items)) {x : String} (h' : r.lookup (p ++ [x]) = .ok (.coll b' items')) :
    (x, Reg.coll b' items') ∈ items := by
  obtain ⟨res, _, hl⟩ := lookup_snoc h x
  rcases hl with hl | ⟨_, hl⟩
  · rw [hl] at h'
    rcases Reg.attr_coll h' with h' | h'
    · cases h'
    · exact h'
  · rw [hl] at h'; cases h'

/-- The entries of a section with different, unreserved names are found at their paths. -/
theorem lookup_child {r : Registry V} {p : List String} {b : Bool} {items : List (String × Reg V)}
    (h : r.lookup p = .ok (.coll b items)) (hn : (items.map Prod.fst).Nodup) {x : String} {n : Reg V}
    (hx : (x, n) ∈ items) (hres : x ∉ registrarReserved) (hother : n ≠ .other) : r.lookup (p ++ [x]) = .ok n := by
  obtain ⟨res, hr, hl⟩ := lookup_snoc h x
  have hx' : x ∉ res := by
    rcases hr with rfl | rfl
    · exact hres
    · intro hh
      exact hres (List.mem_append_right _ hh)
  have ha : Reg.attr res (.coll b items) x = .ok n := by
    rw [Reg.attr, if_neg hx', Reg.get?_nameDict_of_mem hn hx]
  rcases hl with hl | ⟨hl, _⟩
  · rw [hl, ha]
  · rw [ha] at hl; cases hl; exact absurd rfl hother

end Registry

namespace RM

theorem lookup_run (p : List String) (s : RS V) : lookup p s = (s.reg.lookup p, s) := rfl

variable [BEq V]

/-- `m` and `m'` do the same in every state with the registry `r`. -/
def SameOn {α : Type} (r : Registry V) (m m' : RM V α) : Prop := ∀ s, s.reg = r → m s = m' s

/-- `m` keeps the registry. -/
def KeepsReg {α : Type} (m : RM V α) : Prop := ∀ s, (m s).2.reg = s.reg

omit [BEq V] in
theorem SameOn.bind {α β : Type} {r : Registry V} {m m' : RM V α} {f f' : α → RM V β} (h : SameOn r m m')
    (hk : KeepsReg m) (hf : ∀ a, SameOn r (f a) (f' a)) : SameOn r (m >>= f) (m' >>= f') := by
  intro s hs
  rw [M.bind_run, M.bind_run, ← h s hs]
  have := hk s
  cases hm : m s with
  | mk x s' =>
    rw [hm] at this
    cases x with
    | error e => rfl
    | ok a => exact hf a s' (this.trans hs)

theorem Evo.keepsReg {α : Type} {m : RM V α} (h : Evo m) : KeepsReg m := fun s => (h s).reg

omit [BEq V] in
theorem SameOn.refl {α : Type} {r : Registry V} (m : RM V α) : SameOn r m m := fun _ _ => rfl

omit [BEq V] in
/-- The lookup is known. -/
theorem SameOn.lookup {α : Type} {r : Registry V} {p : List String} {n : Reg V} (h : r.lookup p = .ok n)
    (f : Reg V → RM V α) : SameOn r (lookup p >>= f) (f n) := by
  intro s hs
  have : RM.lookup p s = (.ok n, s) := by rw [lookup_run, hs, h]
  rw [M.bind_ok this]

theorem runItems_same {r : Registry V} {f g : List String → RM V (RunRes V)} {p : List String} (hp : p ≠ [])
    (hkeep : ∀ q, q ≠ [] → Evo (f q)) (items : List (String × Reg V))
    (h : ∀ x b its, (x, Reg.coll b its) ∈ items → SameOn r (f (p ++ [x])) (g (p ++ [x]))) :
    SameOn r (runItems f p items) (runItems g p items) := by
  induction items with
  | nil => exact .refl _
  | cons e items ih =>
    have ih := ih (fun x b its hm => h x b its (List.mem_cons_of_mem _ hm))
    obtain ⟨x, n⟩ := e
    cases n with
    | coll b its =>
      cases b with
      | true => exact .refl _
      | false =>
        exact .bind (h x false its List.mem_cons_self) (Evo.keepsReg (hkeep _ (by simp)))
          (fun _ => .bind ih (Evo.keepsReg (evo_runItems hkeep hp items)) (fun _ => .refl _))
    | item k =>
      exact .bind (.refl _) (Evo.keepsReg (evo_runInside hp x k))
        (fun _ => .bind ih (Evo.keepsReg (evo_runItems hkeep hp items)) (fun _ => .refl _))
    | other => exact .refl _

/-- The nesting bound does not matter once it exceeds the depth of the section. -/
theorem runSection_fuel {r : Registry V} (n : Nat) : ∀ (m : Nat) (p : List String) (c : Reg V),
    r.lookup p = .ok c → c.depth < n → c.depth < m → p ≠ [] →
    SameOn r (runSection n p) (runSection m p) := by
  induction n with
  | zero => intro m p c _ h; cases h
  | succ n ih =>
    intro m p c hl hn hm hp
    cases m with
    | zero => cases hm
    | succ m =>
      intro s hs
      rw [runSection, runSection, SameOn.lookup hl _ s hs, SameOn.lookup hl _ s hs]
      cases c with
      | item k => rfl
      | other => rfl
      | coll b items =>
        simp only
        refine SameOn.bind (runItems_same hp (fun q hq => evo_runSection n hq) items ?_)
          (Evo.keepsReg (evo_runItems (fun q hq => evo_runSection n hq) hp items)) (fun _ => .refl _) s hs
        intro x b' its hm'
        rw [Reg.depth] at hn hm
        intro s' hs'
        have hd := Reg.depth_of_mem hm'
        rw [Reg.depth] at hd
        obtain ⟨n', rfl⟩ : ∃ n', n = n' + 1 := ⟨n - 1, by omega⟩
        obtain ⟨m', rfl⟩ : ∃ m', m = m' + 1 := ⟨m - 1, by omega⟩
        cases hlx : r.lookup (p ++ [x]) with
        | error e =>
          rw [runSection, runSection, M.bind_error (e := e) (s' := s') (by rw [lookup_run, hs', hlx]),
            M.bind_error (e := e) (s' := s') (by rw [lookup_run, hs', hlx])]
        | ok c' =>
          cases c' with
          | coll b2 its2 =>
            have := Reg.depth_of_mem (Registry.lookup_snoc_depth hl hlx)
            exact ih (m' + 1) (p ++ [x]) _ hlx (by omega) (by omega) (by simp) s' hs'
          | item k => rw [runSection, runSection, SameOn.lookup hlx _ s' hs', SameOn.lookup hlx _ s' hs']
          | other => rw [runSection, runSection, SameOn.lookup hlx _ s' hs', SameOn.lookup hlx _ s' hs']

theorem getSubs_same {r : Registry V} {f g : List String → RM V (GetRes V)} {p : List String}
    (hkeep : ∀ q, q ≠ [] → Evo (f q)) (items : List (String × Reg V))
    (h : ∀ x b its, (x, Reg.coll b its) ∈ items → SameOn r (f (p ++ [x])) (g (p ++ [x]))) :
    ∀ acc, SameOn r (getSubs f p acc items) (getSubs g p acc items) := by
  induction items with
  | nil => intro acc; exact .refl _
  | cons e items ih =>
    intro acc
    have ih := ih (fun x b its hm => h x b its (List.mem_cons_of_mem _ hm))
    obtain ⟨x, n⟩ := e
    cases n with
    | coll b its =>
      exact .bind (h x b its List.mem_cons_self) (Evo.keepsReg (hkeep _ (by simp))) (fun _ => ih _)
    | item k => exact .refl _
    | other => exact .refl _

/-- The nesting bound does not matter once it exceeds the depth of the section. -/
theorem getSection_fuel {r : Registry V} (n : Nat) : ∀ (m : Nat) (p : List String) (c : Reg V),
    r.lookup p = .ok c → c.depth < n → c.depth < m →
    SameOn r (getSection n p) (getSection m p) := by
  induction n with
  | zero => intro m p c _ h; cases h
  | succ n ih =>
    intro m p c hl hn hm
    cases m with
    | zero => cases hm
    | succ m =>
      intro s hs
      rw [getSection, getSection, SameOn.lookup hl _ s hs, SameOn.lookup hl _ s hs]
      cases c with
      | item k => rfl
      | other => rfl
      | coll b items =>
        simp only
        split
        · refine SameOn.bind (getSubs_same (fun q hq => evo_getSection n hq) items ?_ [])
            (Evo.keepsReg (evo_getSubs (fun q hq => evo_getSection n hq) items [])) (fun _ => .refl _) s hs
          intro x b' its hm'
          rw [Reg.depth] at hn hm
          intro s' hs'
          have hd := Reg.depth_of_mem hm'
          rw [Reg.depth] at hd
          obtain ⟨n', rfl⟩ : ∃ n', n = n' + 1 := ⟨n - 1, by omega⟩
          obtain ⟨m', rfl⟩ : ∃ m', m = m' + 1 := ⟨m - 1, by omega⟩
          cases hlx : r.lookup (p ++ [x]) with
          | error e =>
            rw [getSection, getSection, M.bind_error (e := e) (s' := s') (by rw [lookup_run, hs', hlx]),
              M.bind_error (e := e) (s' := s') (by rw [lookup_run, hs', hlx])]
          | ok c' =>
            cases c' with
            | coll b2 its2 =>
              have := Reg.depth_of_mem (Registry.lookup_snoc_depth hl hlx)
              exact ih (m' + 1) (p ++ [x]) _ hlx (by omega) (by omega) s' hs'
            | item k => rw [getSection, getSection, SameOn.lookup hlx _ s' hs', SameOn.lookup hlx _ s' hs']
            | other => rw [getSection, getSection, SameOn.lookup hlx _ s' hs', SameOn.lookup hlx _ s' hs']
        · rfl

omit [BEq V] in
/-- Running a section, with the nesting bound of the section itself. -/
theorem run1_section {r : Registry V} {p : List String} {items : List (String × Reg V)}
    (h : r.lookup p = .ok (.coll false items)) :
    SameOn r (run1 p) (runSection (r.depth + 1) p) := by
  intro s hs
  unfold run1
  rw [M.bind_ok (M.get_run s), SameOn.lookup h _ s hs, hs]

omit [BEq V] in
theorem run1_item_same {r : Registry V} {p : List String} {k : Callable V} (h : r.lookup p = .ok (.item k)) :
    SameOn r (run1 p) (runItem p k >>= fun v => pure (.one v)) := by
  intro s hs
  exact run_item (by rw [hs]; exact h)

omit [BEq V] in
theorem get_section {r : Registry V} {p : List String} {b : Bool} {items : List (String × Reg V)}
    (h : r.lookup p = .ok (.coll b items)) :
    SameOn r (get p) (getSection (r.depth + 1) p) := by
  intro s hs
  unfold get
  rw [M.bind_ok (M.get_run s), SameOn.lookup h _ s hs, hs]

omit [BEq V] in
theorem get_item_same {r : Registry V} {p : List String} {k : Callable V} (h : r.lookup p = .ok (.item k)) :
    SameOn r (get p) (getItem p k >>= fun o => pure (.obj o)) := by
  intro s hs
  exact get_item (by rw [hs]; exact h)

end RM
end Verif.Model
