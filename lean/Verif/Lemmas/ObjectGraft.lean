import Verif.Lemmas.ObjectLoad

/-
Objects that are put into sections: what is found where afterwards.
-/

namespace Verif.Model
open Verif.Py
variable {V : Type}

namespace HS

theorem find_cases {s : HS V} {q : List String} {v : HVal} (h : s.find q = some v) : v = .mgr ∨ ∃ r, v = .ref r := by
  unfold find at h
  split at h
  · cases h; exact .inl rfl
  · cases h; exact .inr ⟨_, rfl⟩
  · cases h

theorem find_mgr_nil {s : HS V} {q : List String} (h : s.find q = some .mgr) : q = [] := by
  rcases List.eq_nil_or_concat q with rfl | ⟨q', x, rfl⟩
  · rfl
  · rw [List.concat_eq_append, find_concat] at h
    cases hf : s.find q' with
    | none => rw [hf] at h; cases h
    | some v =>
      rw [hf] at h
      simp only [child] at h
      split at h <;> cases h

theorem still_alloc {s : HS V} (hi : HInv s) (h : List (HObj V)) : s.Still { s with heap := s.heap ++ h } :=
  ⟨inv_alloc hi h, rfl, rfl, view_alloc hi h, place_alloc hi h, by simp⟩

theorem walk_none (s : HS V) (rest : List String) : s.walk .none rest = if rest = [] then .ok .none else .error .attributeError := by
  cases rest <;> rfl

theorem attr_conf {s : HS V} {r : Nat} {c : Conf V} (h : s.heap[r]? = some (.conf c)) (x : String) :
    s.attr (.ref r) x = match c.getattr x with
      | .ok _ => .ok .none
      | .error e => .error e := by
  simp only [attr, obj, h, objAttr]
  cases c.getattr x <;> rfl

theorem attr_file {s : HS V} {r : Nat} {l : FileLoc} (h : s.heap[r]? = some (.file l)) (x : String) :
    s.attr (.ref r) x = .error .attributeError := by
  simp only [attr, obj, h, objAttr]

theorem attr_sect_none {s : HS V} {r : Nat} {nm cfg attrs map} (h : s.heap[r]? = some (.sect nm cfg attrs map)) {x : String}
    (hx : x ≠ nm) (hr : x ∉ sectionReserved) (hc : s.child (.ref r) x = none) : s.attr (.ref r) x = .error .keyError := by
  rw [child_sect h hx hr] at hc
  unfold attr obj
  simp only [h, objAttr, sectAttr]
  rw [if_neg (mem_sectionReserved hr), if_neg hr]
  unfold sectChild at hc
  cases ha : AList.get? attrs x with
  | some k => rw [ha] at hc; cases hc
  | none =>
    rw [ha] at hc
    simp only at hc
    cases hm : AList.get? map x with
    | some k => rw [hm] at hc; cases hc
    | none =>
      cases cfg with
      | none => rfl
      | some c => simp only [if_neg hx]

theorem attr_mgr_none {s : HS V} {nm cfg attrs map} (h : s.heap[s.section_]? = some (.sect nm cfg attrs map)) {x : String}
    (hx : x ≠ nm) (hr : x ∉ managerReserved) (hc : s.child .mgr x = none) : s.attr .mgr x = .error .keyError := by
  obtain ⟨h1, h2, h3, h4, h5⟩ := mem_managerReserved hr
  rw [child_mgr h hx hr] at hc
  have hs := attr_sect_none h hx h5
  rw [child_sect h hx h5] at hs
  unfold attr at hs ⊢
  dsimp only at hs ⊢
  rw [if_neg h1, if_neg h2, if_neg h3]
  cases ha : AList.get? s.attrs x with
  | some k => rw [ha] at hc; cases hc
  | none => rw [ha] at hc; exact hs hc

end HS

/-! ### One section has something else under one name -/

/-- A place at a path or below it. -/
def Place.Under (p : List String) : Place → Prop
  | .item q => p <+: q
  | .cfg q => p <+: q
  | .root => False
  | .loc => False

instance (p a) : Decidable (Place.Under p a) := by
  cases a <;> unfold Place.Under <;> infer_instance

theorem Place.under_iff {p : List String} {a : Place} : a.Under p ↔ ∃ (b : Bool) (rest : List String), a = if b then .cfg (p ++ rest) else .item (p ++ rest) := by
  constructor
  · intro h
    cases a with
    | item q => obtain ⟨t, rfl⟩ := h; exact ⟨false, t, rfl⟩
    | cfg q => obtain ⟨t, rfl⟩ := h; exact ⟨true, t, rfl⟩
    | root => exact h.elim
    | loc => exact h.elim
  · rintro ⟨b, rest, rfl⟩
    cases b
    · exact List.prefix_append p rest
    · exact List.prefix_append p rest

theorem Place.under_clean {p rest : List String} {b : Bool} {rn : String}
    (h : Place.Clean rn (if b then .cfg (p ++ rest) else .item (p ++ rest))) : CleanPath rn (p ++ rest) := by
  cases b <;> exact h

/-- The same objects, up to the attributes of sections. -/
structure HS.Resect (s s' : HS V) : Prop where
  fs : s'.fs = s.fs
  rootName : s'.rootName = s.rootName
  section_ : s'.section_ = s.section_
  localConf : s'.localConf = s.localConf
  length : s'.heap.length = s.heap.length
  same : ∀ k : Nat, s'.heap[k]? = s.heap[k]? ∨ ∃ nm cfg a m a' m', s.heap[k]? = some (.sect nm cfg a m) ∧
    s'.heap[k]? = some (.sect nm cfg a' m')

namespace HS.Resect
variable {s s' : HS V}

theorem conf (h : s.Resect s') {k : Nat} {c : Conf V} : s'.heap[k]? = some (.conf c) ↔ s.heap[k]? = some (.conf c) := by
  rcases h.same k with e | ⟨nm, cfg, a, m, a', m', e1, e2⟩
  · rw [e]
  · rw [e1, e2]; simp

theorem confAt (h : s.Resect s') : s'.confAt = s.confAt := by
  funext k
  unfold HS.confAt
  rcases h.same k with e | ⟨nm, cfg, a, m, a', m', e1, e2⟩
  · rw [e]
  · rw [e1, e2]

theorem cfgOf (h : s.Resect s') (k : Nat) : s'.cfgOf k = s.cfgOf k := by
  unfold HS.cfgOf
  rcases h.same k with e | ⟨nm, cfg, a, m, a', m', e1, e2⟩
  · rw [e]
  · rw [e1, e2]

theorem slotAt (h : s.Resect s') (k : Nat) : s'.slotAt k = s.slotAt k := by
  unfold HS.slotAt
  rw [h.confAt]
  rcases h.same k with e | ⟨nm, cfg, a, m, a', m', e1, e2⟩
  · rw [e]
  · rw [e1, e2]

theorem sect (h : s.Resect s') {k : Nat} {nm cfg a' m'} (hk : s'.heap[k]? = some (.sect nm cfg a' m')) :
    ∃ a m, s.heap[k]? = some (.sect nm cfg a m) := by
  rcases h.same k with e | ⟨nm, cfg, a, m, a', m', e1, e2⟩
  · exact ⟨_, _, e ▸ hk⟩
  · rw [e2] at hk; cases hk; exact ⟨_, _, e1⟩

/-- If every path leads to the same object, nothing has changed. -/
theorem still (h : s.Resect s') (hi : HInv s) (hf : ∀ q, CleanPath s.rootName q → s'.find q = s.find q) : s.Still s' := by
  have hplace : ∀ a, a.Clean s.rootName → s'.place a = s.place a := by
    intro a ha
    cases a with
    | item q' => simp only [HS.place, hf q' ha]
    | cfg q' => simp only [HS.place, hf q' ha, h.section_, h.cfgOf]
    | root => simp only [HS.place, h.section_]
    | loc => simp only [HS.place, h.localConf]
  refine ⟨⟨?_, ?_, ?_, ?_, ?_, ?_⟩, h.fs, h.rootName, ?_, hplace, by rw [h.length]; exact Nat.le_refl _⟩
  · intro a k ha hk
    rw [h.rootName] at ha
    rw [hplace a ha] at hk
    rw [h.length]
    exact hi.bound a k ha hk
  · intro a a' k ha ha' hk hk'
    rw [h.rootName] at ha ha'
    rw [hplace a ha] at hk
    rw [hplace a' ha'] at hk'
    exact hi.inj a a' k ha ha' hk hk'
  · obtain ⟨cfg, attrs, map, hr⟩ := hi.root
    rw [h.section_, h.rootName]
    rcases h.same s.section_ with e | ⟨nm, cfg, a, m, a', m', e1, e2⟩
    · rw [e]; exact ⟨_, _, _, hr⟩
    · rw [e1] at hr; cases hr; exact ⟨_, _, _, e2⟩
  · obtain ⟨c, hc⟩ := hi.loc
    rw [h.localConf]
    exact ⟨c, h.conf.2 hc⟩
  · intro q' k hq hk
    rw [h.rootName] at hq
    rw [hplace (.cfg q') hq] at hk
    obtain ⟨c, hc⟩ := hi.cfg q' k hq hk
    exact ⟨c, h.conf.2 hc⟩
  · intro q' k nm cfg attrs map hq hf' ho
    rw [h.rootName] at hq ⊢
    rw [hf q' hq] at hf'
    obtain ⟨a, m, ho⟩ := h.sect ho
    exact hi.name q' k nm cfg a m hq hf' ho
  · show View.mk _ _ _ _ = View.mk _ _ _ _
    rw [h.fs, h.rootName]
    congr 1
    · show (s'.confAt s'.localConf).getD _ = (s.confAt s.localConf).getD _
      rw [h.confAt, h.localConf]
    · funext q'
      by_cases hq : CleanPath s.rootName q'
      · rw [if_pos hq, if_pos hq]
        unfold HS.hslot
        rw [hf q' hq, h.section_]
        cases s.find q' with
        | none => rfl
        | some v =>
          cases v with
          | mgr => exact h.slotAt _
          | ref k => exact h.slotAt _
          | none => rfl
          | other => rfl
      · rw [if_neg hq, if_neg hq]

end HS.Resect

/-- In `s'`, the section (or the manager) at `q` has the object `r` under the name `x`; all else is as in `s`. -/
structure HS.Patch (s s' : HS V) (q : List String) (x : String) (r : Nat) : Prop extends s.Resect s' where
  clean : CleanPath s.rootName (q ++ [x])
  child : ∀ q1 y v, CleanPath s.rootName (q1 ++ [y]) → s.find q1 = some v → q1 ++ [y] ≠ q ++ [x] → s'.child v y = s.child v y
  here : ∃ v, s.find q = some v ∧ s'.child v x = some (.ref r)

namespace HS.Patch
variable {s s' : HS V} {q : List String} {x : String} {r : Nat}

theorem find_off (h : s.Patch s' q x r) (q' : List String) : CleanPath s.rootName q' → ¬ (q ++ [x]) <+: q' → s'.find q' = s.find q' := by
  induction q' using snoc_induction with
  | h0 => intro _ _; rfl
  | h1 q1 y ih =>
    intro hq hp
    have h1 : ¬ (q ++ [x]) <+: q1 := fun hh => hp (hh.trans (List.prefix_append q1 [y]))
    rw [HS.find_concat, HS.find_concat, ih (cleanPath_concat.1 hq).1 h1]
    cases hf : s.find q1 with
    | none => rfl
    | some v =>
      refine h.child q1 y v hq hf ?_
      intro e
      exact hp (e ▸ List.prefix_refl _)

theorem find_here (h : s.Patch s' q x r) : s'.find (q ++ [x]) = some (.ref r) := by
  obtain ⟨v, h1, h2⟩ := h.here
  rw [HS.find_concat, h.find_off q (cleanPath_concat.1 h.clean).1 ?_, h1]
  · exact h2
  · intro hp
    have := hp.length_le
    simp at this
    omega

theorem find_on (h : s.Patch s' q x r) (rest : List String) : s'.find (q ++ [x] ++ rest) =
    match s'.addr (.ref r) rest false with
    | some k => some (.ref k)
    | none => none := by
  have hw := HS.walk_of_find h.find_here
  have hall := HS.walk_append s' .mgr (q ++ [x]) rest
  rw [hw] at hall
  simp only at hall
  unfold HS.addr
  cases hr : s'.walk (.ref r) rest with
  | error e =>
    unfold HS.find
    rw [hall, hr]
  | ok v =>
    have hm : s'.find (q ++ [x] ++ rest) ≠ some .mgr := fun e => by
      have := find_mgr e
      simp at this
    unfold HS.find at hm ⊢
    rw [hall, hr] at hm ⊢
    cases v with
    | mgr => exact absurd rfl hm
    | ref k => rfl
    | none => rfl
    | other => rfl

theorem place_on (h : s.Patch s' q x r) (rest : List String) (b : Bool) :
    s'.place (if b then .cfg (q ++ [x] ++ rest) else .item (q ++ [x] ++ rest)) = s'.addr (.ref r) rest b := by
  have hf := h.find_on rest
  have hb : s'.addr (.ref r) rest true = match s'.addr (.ref r) rest false with
      | some k => s'.cfgOf k
      | none => none := by
    unfold HS.addr
    split
    · rfl
    · rfl
  cases ha : s'.addr (.ref r) rest false with
  | none =>
    rw [ha] at hf hb
    cases b with
    | false => simp only [HS.place, Bool.false_eq_true, if_false, hf, ha]
    | true => simp only [HS.place, if_true, hf, hb]
  | some k =>
    rw [ha] at hf hb
    cases b with
    | false => simp only [HS.place, Bool.false_eq_true, if_false, hf, ha]
    | true => simp only [HS.place, if_true, hf, hb]

theorem place_off (h : s.Patch s' q x r) {a : Place} (ha : a.Clean s.rootName) (hu : ¬ a.Under (q ++ [x])) : s'.place a = s.place a := by
  cases a with
  | item q' => simp only [HS.place, h.find_off q' ha hu]
  | cfg q' =>
    simp only [HS.place, h.find_off q' ha hu, h.section_, h.cfgOf]
  | root => simp only [HS.place, h.section_]
  | loc => simp only [HS.place, h.localConf]

end HS.Patch

/-- The objects at and below a path, where there is the object `r` now: they are new, each place has one of its own, and they are
those of the tree `n`. -/
structure HS.Below (s s' : HS V) (lo : Nat) (p : List String) (r : Nat) (n : Node V) : Prop where
  range : ∀ rest b j, CleanPath s.rootName (p ++ rest) → s'.addr (.ref r) rest b = some j → lo ≤ j ∧ j < s'.heap.length
  new : ∀ rest b j a, CleanPath s.rootName (p ++ rest) → s'.addr (.ref r) rest b = some j → a.Clean s.rootName →
    ¬ a.Under p → s.place a ≠ some j
  inj : ∀ rest b rest' b' j, CleanPath s.rootName (p ++ rest) → CleanPath s.rootName (p ++ rest') →
    s'.addr (.ref r) rest b = some j → s'.addr (.ref r) rest' b' = some j → rest = rest' ∧ b = b'
  cfg : ∀ rest j, CleanPath s.rootName (p ++ rest) → s'.addr (.ref r) rest true = some j → ∃ c, s'.heap[j]? = some (.conf c)
  name : ∀ rest j nm cfg attrs map, CleanPath s.rootName (p ++ rest) → s'.addr (.ref r) rest false = some j →
    s'.heap[j]? = some (.sect nm cfg attrs map) → nm = (p ++ rest).getLast?.getD s.rootName
  slot : ∀ rest, CleanPath s.rootName (p ++ rest) → (match s'.addr (.ref r) rest false with
    | some k => s'.slotAt k
    | none => .absent) = Node.slotOf (n.walk sectionReserved (p.getLast?.getD s.rootName) rest)

/-- What is seen when there is the tree `n` at the path `p`. -/
def View.graft (a : View V) (p : List String) (n : Node V) : View V :=
  { a with slot := fun q => if p <+: q then Node.slotOf (n.walk sectionReserved (p.getLast?.getD a.rootName) (q.drop p.length))
    else a.slot q }

namespace HS.Patch
variable {s s' : HS V} {q : List String} {x : String} {r lo : Nat} {n : Node V}

theorem inv (h : s.Patch s' q x r) (hb : s.Below s' lo (q ++ [x]) r n) (hi : HInv s) : HInv s' := by
  refine ⟨?_, ?_, ?_, ?_, ?_, ?_⟩
  · intro a k ha hk
    rw [h.rootName] at ha
    by_cases hu : a.Under (q ++ [x])
    · obtain ⟨b, rest, rfl⟩ := Place.under_iff.1 hu
      rw [h.place_on] at hk
      exact (hb.range rest b k (Place.under_clean ha) hk).2
    · rw [h.place_off ha hu] at hk
      rw [h.length]
      exact hi.bound a k ha hk
  · intro a a' k ha ha' hk hk'
    rw [h.rootName] at ha ha'
    by_cases hu : a.Under (q ++ [x])
    · obtain ⟨b, rest, rfl⟩ := Place.under_iff.1 hu
      rw [h.place_on] at hk
      by_cases hu' : a'.Under (q ++ [x])
      · obtain ⟨b', rest', rfl⟩ := Place.under_iff.1 hu'
        rw [h.place_on] at hk'
        obtain ⟨rfl, rfl⟩ := hb.inj rest b rest' b' k (Place.under_clean ha) (Place.under_clean ha') hk hk'
        rfl
      · rw [h.place_off ha' hu'] at hk'
        exact absurd hk' (hb.new rest b k a' (Place.under_clean ha) hk ha' hu')
    · rw [h.place_off ha hu] at hk
      by_cases hu' : a'.Under (q ++ [x])
      · obtain ⟨b', rest', rfl⟩ := Place.under_iff.1 hu'
        rw [h.place_on] at hk'
        exact absurd hk (hb.new rest' b' k a (Place.under_clean ha') hk' ha hu)
      · rw [h.place_off ha' hu'] at hk'
        exact hi.inj a a' k ha ha' hk hk'
  · obtain ⟨cfg, attrs, map, hr⟩ := hi.root
    rw [h.section_, h.rootName]
    rcases h.same s.section_ with e | ⟨nm, cfg, a, m, a', m', e1, e2⟩
    · rw [e]; exact ⟨_, _, _, hr⟩
    · rw [e1] at hr; cases hr; exact ⟨_, _, _, e2⟩
  · obtain ⟨c, hc⟩ := hi.loc
    rw [h.localConf]
    exact ⟨c, h.conf.2 hc⟩
  · intro q' k hq hk
    rw [h.rootName] at hq
    by_cases hu : Place.Under (q ++ [x]) (.cfg q')
    · obtain ⟨rest, rfl⟩ : (q ++ [x]) <+: q' := hu
      have := h.place_on rest true
      simp only [if_true] at this
      rw [this] at hk
      exact hb.cfg rest k hq hk
    · rw [h.place_off (a := .cfg q') hq hu] at hk
      obtain ⟨c, hc⟩ := hi.cfg q' k hq hk
      exact ⟨c, h.conf.2 hc⟩
  · intro q' k nm cfg attrs map hq hf ho
    rw [h.rootName] at hq ⊢
    by_cases hu : (q ++ [x]) <+: q'
    · obtain ⟨rest, rfl⟩ := hu
      rw [h.find_on] at hf
      split at hf
      · rename_i k' hk
        cases hf
        exact hb.name rest k nm cfg attrs map hq hk ho
      · cases hf
    · rw [h.find_off q' hq hu] at hf
      obtain ⟨a, m, ho⟩ := h.sect ho
      exact hi.name q' k nm cfg a m hq hf ho

theorem view (h : s.Patch s' q x r) (hb : s.Below s' lo (q ++ [x]) r n) : s'.view = (s.view.graft (q ++ [x]) n).clean := by
  have e : (s.view.graft (q ++ [x]) n).clean = ⟨s.fs, s.rootName, s.view.localConf, fun q' =>
      if CleanPath s.rootName q' then (s.view.graft (q ++ [x]) n).slot q' else .absent⟩ := rfl
  rw [e]
  show View.mk _ _ _ _ = _
  rw [h.fs, h.rootName]
  congr 1
  · show (s'.confAt s'.localConf).getD _ = (s.confAt s.localConf).getD _
    rw [h.confAt, h.localConf]
  · funext q'
    by_cases hq : CleanPath s.rootName q'
    · rw [if_pos hq, if_pos hq]
      show s'.hslot q' = if _ then _ else _
      by_cases hu : (q ++ [x]) <+: q'
      · rw [if_pos hu]
        obtain ⟨rest, rfl⟩ := hu
        rw [List.drop_left]
        refine Eq.trans ?_ (hb.slot rest hq)
        unfold HS.hslot
        rw [h.find_on]
        cases s'.addr (.ref r) rest false <;> rfl
      · rw [if_neg hu, HS.view_slot hq]
        unfold HS.hslot
        rw [h.find_off q' hq hu, h.section_]
        cases s.find q' with
        | none => rfl
        | some v =>
          cases v with
          | mgr => exact h.slotAt _
          | ref k => exact h.slotAt _
          | none => rfl
          | other => rfl
    · rw [if_neg hq, if_neg hq]

end HS.Patch

/-! ### Objects in a section that was read from files, and sections created around a config -/

theorem cleanPath_append {rn : String} {p rest : List String} (hne : p ≠ []) (h : CleanPath rn (p ++ rest)) :
    PlainPath (p.getLast?.getD rn) rest ∧ NotReserved sectionReserved rest := by
  have key : ∀ (p : List String) (rn : String) (res : List String), p ≠ [] → PlainPath rn (p ++ rest) → NotReserved res (p ++ rest) →
      PlainPath (p.getLast?.getD rn) rest ∧ NotReserved sectionReserved rest := by
    intro p
    induction p with
    | nil => intro _ _ h; exact absurd rfl h
    | cons x p ih =>
      intro rn res _ h1 h2
      cases p with
      | nil => exact ⟨h1.2, h2.2⟩
      | cons y p =>
        have := ih x sectionReserved (by simp) h1.2 h2.2
        rw [getLast_cons_cons]
        exact this
  exact key p rn managerReserved hne h.1 h.2

theorem getLast_append (p rest : List String) (rn : String) :
    (p ++ rest).getLast?.getD rn = rest.getLast?.getD (p.getLast?.getD rn) := by
  rw [List.getLast?_append]
  cases rest.getLast? <;> simp

theorem Built.addr_walk {s : HS V} {nm : String} {n : Node V} {r lo hi : Nat} (h : Built s.heap nm n r lo hi) {q : List String}
    (hp : PlainPath nm q) (hr : NotReserved sectionReserved q) :
    match n.walk sectionReserved nm q with
    | .ok n' => ∃ k lo' hi', s.addr (.ref r) q false = some k ∧ Built s.heap (q.getLast?.getD nm) n' k lo' hi' ∧
        s.addr (.ref r) q true = s.cfgOf k
    | .error _ => ∀ b, s.addr (.ref r) q b = none := by
  have hw := Built.walk q h hp hr
  unfold HS.addr
  cases hn : n.walk sectionReserved nm q with
  | error e =>
    rw [hn] at hw
    obtain ⟨e', hw⟩ := hw
    rw [hw]
    intro b; rfl
  | ok n' =>
    rw [hn] at hw
    obtain ⟨r', lo', hi', hw, hb, h1, h2⟩ := hw
    rw [hw]
    exact ⟨r', lo', hi', rfl, hb, rfl⟩

theorem Built.below_of {s s' : HS V} {p : List String} {n : Node V} {r lo : Nat} (hne : p ≠ [])
    (h : Built s'.heap (p.getLast?.getD s.rootName) n r lo s'.heap.length)
    (hnew : ∀ a j, a.Clean s.rootName → s.place a = some j → j < lo) : s.Below s' lo p r n := by
  refine ⟨?_, ?_, ?_, ?_, ?_, ?_⟩
  · intro rest b j hc hj
    obtain ⟨h1, h2⟩ := cleanPath_append hne hc
    exact h.addr_range h1 h2 hj
  · intro rest b j a hc hj ha _ hpl
    obtain ⟨h1, h2⟩ := cleanPath_append hne hc
    have := (h.addr_range h1 h2 hj).1
    have := hnew a j ha hpl
    omega
  · intro rest b rest' b' j hc hc' hj hj'
    obtain ⟨h1, h2⟩ := cleanPath_append hne hc
    obtain ⟨h1', h2'⟩ := cleanPath_append hne hc'
    exact Built.addr_inj rest h h1 h2 h1' h2' hj hj'
  · intro rest j hc hj
    obtain ⟨h1, h2⟩ := cleanPath_append hne hc
    have hw := h.addr_walk h1 h2
    split at hw
    · obtain ⟨k, lo', hi', e1, e2, e3⟩ := hw
      rw [e3] at hj
      exact (e2.cfgOf_range hj).2.2.2
    · rw [hw true] at hj; cases hj
  · intro rest j nm cfg attrs map hc hj ho
    obtain ⟨h1, h2⟩ := cleanPath_append hne hc
    have hw := h.addr_walk h1 h2
    split at hw
    · obtain ⟨k, lo', hi', e1, e2, e3⟩ := hw
      rw [e1] at hj
      cases hj
      rw [getLast_append]
      exact e2.name ho
    · rw [hw false] at hj; cases hj
  · intro rest hc
    obtain ⟨h1, h2⟩ := cleanPath_append hne hc
    have hw := h.addr_walk h1 h2
    split at hw
    · rename_i hn
      obtain ⟨k, lo', hi', e1, e2, e3⟩ := hw
      rw [e1, hn]
      exact e2.slotAt
    · rename_i hn
      rw [hw false, hn]
      rfl

/-- The sections created for the path `r` below the section `x`, from the address `k` on, around the object `ρ`. -/
def HasChain (H : List (HObj V)) (ρ : Nat) : Nat → String → List String → Prop
  | _, _, [] => True
  | k, x, y :: r => H[k]? = some (.sect x none [] [(y, if r = [] then ρ else k + 1)]) ∧ HasChain H ρ (k + 1) y r

/-- Where the first of them is. -/
def chainTop (ρ k : Nat) (r : List String) : Nat := if r = [] then ρ else k

theorem HasChain.addr {s : HS V} {ρ : Nat} {c : Conf V} (hc : s.heap[ρ]? = some (.conf c)) (rest : List String) :
    ∀ {k : Nat} {x : String} {r : List String}, HasChain s.heap ρ k x r → NotReserved sectionReserved rest →
    PlainPath x rest →
    s.addr (.ref (chainTop ρ k r)) rest false =
      (if rest <+: r then some (if rest.length = r.length then ρ else k + rest.length) else none) ∧
    s.addr (.ref (chainTop ρ k r)) rest true = none ∧
    Node.slotOf ((CMM.nest (.conf c) r).walk sectionReserved x rest) =
      (if rest <+: r then if rest.length = r.length then .conf c else .sect none else .absent) := by
  induction rest with
  | nil =>
    intro k x r h _ _
    cases r with
    | nil => simp [HS.addr, chainTop, HS.walk, HS.cfgOf, hc, CMM.nest, Node.walk, Node.slotOf]
    | cons y r =>
      have h1 := h.1
      simp [HS.addr, chainTop, HS.walk, HS.cfgOf, h1, CMM.nest, Node.walk, Node.slotOf]
  | cons z rest ih =>
    intro k x r h hr hp
    obtain ⟨hz, hr'⟩ := hr
    obtain ⟨hzx, hp'⟩ := hp
    cases r with
    | nil =>
      have hw : ∀ b, s.addr (.ref ρ) (z :: rest) b = none := by
        intro b
        unfold HS.addr
        rw [HS.walk, HS.attr_conf hc]
        cases hg : c.getattr z with
        | error e => rfl
        | ok u =>
          simp only
          rw [HS.walk_none]
          cases rest <;> rfl
      refine ⟨?_, ?_, ?_⟩
      · simp [chainTop, hw]
      · simp [chainTop, hw]
      · rw [if_neg (by simp)]
        show Node.slotOf (Node.walk sectionReserved x (.conf c) (z :: rest)) = _
        cases hw : Node.walk sectionReserved x (.conf c) (z :: rest) with
        | error e => rfl
        | ok n => rw [NodeOK.walk_conf_cons hw]; rfl
    | cons y r =>
      obtain ⟨h1, h2⟩ := h
      have hattr : s.attr (.ref k) z = if z = y then .ok (.ref (chainTop ρ (k + 1) r)) else .error .keyError := by
        simp only [HS.attr, HS.obj, h1, HS.objAttr, HS.sectAttr]
        rw [if_neg (mem_sectionReserved hz), if_neg hz]
        simp only [AList.get?]
        by_cases hzy : y = z
        · subst hzy; simp [chainTop]
        · rw [if_neg hzy, if_neg (fun e => hzy e.symm)]
      have hnode : Node.child sectionReserved x (CMM.nest (.conf c) (y :: r)) z =
          if z = y then .ok (CMM.nest (.conf c) r) else .error .keyError := by
        simp only [CMM.nest, Node.child]
        rw [if_neg hz]
        simp only [AList.get?]
        by_cases hzy : y = z
        · subst hzy; simp
        · rw [if_neg hzy, if_neg (fun e => hzy e.symm)]
      have htop : chainTop ρ k (y :: r) = k := by simp [chainTop]
      rw [htop]
      by_cases hzy : z = y
      · subst hzy
        rw [if_pos rfl] at hattr hnode
        obtain ⟨e1, e2, e3⟩ := ih h2 hr' hp'
        refine ⟨?_, ?_, ?_⟩
        · unfold HS.addr at e1 ⊢
          rw [HS.walk, hattr]
          simp only
          rw [e1]
          simp only [List.cons_prefix_cons, true_and, List.length_cons, Nat.add_right_cancel_iff]
          split
          · split
            · rfl
            · congr 1; omega
          · rfl
        · unfold HS.addr at e2 ⊢
          rw [HS.walk, hattr]
          exact e2
        · rw [Node.walk, hnode]
          simp only
          rw [e3]
          simp [List.cons_prefix_cons]
      · rw [if_neg hzy] at hattr hnode
        have hpre : ¬ z :: rest <+: y :: r := by
          rw [List.cons_prefix_cons]
          exact fun h => hzy h.1
        rw [if_neg hpre, if_neg hpre]
        refine ⟨?_, ?_, ?_⟩
        · unfold HS.addr; rw [HS.walk, hattr]
        · unfold HS.addr; rw [HS.walk, hattr]
        · rw [Node.walk, hnode]; rfl

theorem HasChain.name {H : List (HObj V)} {ρ : Nat} (rest : List String) : ∀ {k : Nat} {x : String} {r : List String}, HasChain H ρ k x r →
    rest <+: r → rest.length ≠ r.length → ∃ m, H[k + rest.length]? = some (.sect (rest.getLast?.getD x) none [] m) := by
  induction rest with
  | nil =>
    intro k x r h _ hl
    cases r with
    | nil => exact absurd rfl hl
    | cons y r => exact ⟨_, h.1⟩
  | cons z rest ih =>
    intro k x r h hp hl
    cases r with
    | nil => simp at hp
    | cons y r =>
      obtain ⟨rfl, hp'⟩ := List.cons_prefix_cons.1 hp
      obtain ⟨m, hm⟩ := ih h.2 hp' (by simpa using hl)
      refine ⟨m, ?_⟩
      rw [List.length_cons, show k + (rest.length + 1) = k + 1 + rest.length by omega, hm]
      cases rest with
      | nil => rfl
      | cons w rest => rw [getLast_cons_cons]

theorem HasChain.below {s s' : HS V} {q : List String} {x : String} {r : List String} {ρ k : Nat} {c : Conf V}
    (hc : s'.heap[ρ]? = some (.conf c)) (h : HasChain s'.heap ρ k x r) (hk : ρ < k)
    (hnew : ∀ a j, a.Clean s.rootName → s.place a = some j → j < ρ) :
    s.Below s' ρ (q ++ [x]) (chainTop ρ k r) (CMM.nest (.conf c) r) := by
  have hne : q ++ [x] ≠ [] := by simp
  have hlast : (q ++ [x]).getLast?.getD s.rootName = x := by simp
  have hform : ∀ rest b j, CleanPath s.rootName (q ++ [x] ++ rest) → s'.addr (.ref (chainTop ρ k r)) rest b = some j →
      b = false ∧ rest <+: r ∧ j = (if rest.length = r.length then ρ else k + rest.length) := by
    intro rest b j hcl hj
    obtain ⟨h1, h2⟩ := cleanPath_append hne hcl
    rw [hlast] at h1
    obtain ⟨e1, e2, -⟩ := h.addr hc rest h2 h1
    cases b with
    | true => rw [e2] at hj; cases hj
    | false =>
      rw [e1] at hj
      split at hj
      · rename_i hp
        cases hj
        exact ⟨rfl, hp, rfl⟩
      · cases hj
  have hlen : ∀ rest, rest <+: r → ρ ≤ (if rest.length = r.length then ρ else k + rest.length) ∧
      (if rest.length = r.length then ρ else k + rest.length) < s'.heap.length := by
    intro rest hp
    split
    · exact ⟨Nat.le_refl _, (List.getElem?_eq_some_iff.1 hc).1⟩
    · rename_i hl
      obtain ⟨m, hm⟩ := h.name rest hp hl
      exact ⟨by omega, (List.getElem?_eq_some_iff.1 hm).1⟩
  refine ⟨?_, ?_, ?_, ?_, ?_, ?_⟩
  · intro rest b j hcl hj
    obtain ⟨-, hp, rfl⟩ := hform rest b j hcl hj
    exact hlen rest hp
  · intro rest b j a hcl hj ha _ hpl
    obtain ⟨-, hp, rfl⟩ := hform rest b j hcl hj
    have := hnew a _ ha hpl
    have := (hlen rest hp).1
    omega
  · intro rest b rest' b' j hcl hcl' hj hj'
    obtain ⟨rfl, hp, e⟩ := hform rest b j hcl hj
    obtain ⟨rfl, hp', e'⟩ := hform rest' b' j hcl' hj'
    refine ⟨?_, rfl⟩
    have hl : rest.length = rest'.length := by
      rw [e] at e'
      have := hp.length_le
      have := hp'.length_le
      split at e' <;> split at e' <;> omega
    exact List.prefix_of_prefix_length_le hp hp' (by omega) |>.eq_of_length hl
  · intro rest j hcl hj
    have := (hform rest true j hcl hj).1
    cases this
  · intro rest j nm cfg attrs map hcl hj ho
    obtain ⟨-, hp, rfl⟩ := hform rest false j hcl hj
    rw [getLast_append, hlast]
    split at ho
    · rw [hc] at ho; cases ho
    · rename_i hl
      obtain ⟨m, hm⟩ := h.name rest hp hl
      rw [hm] at ho
      cases ho; rfl
  · intro rest hcl
    obtain ⟨h1, h2⟩ := cleanPath_append hne hcl
    rw [hlast] at h1 ⊢
    obtain ⟨e1, -, e3⟩ := h.addr hc rest h2 h1
    rw [e1, e3]
    by_cases hp : rest <+: r
    · rw [if_pos hp, if_pos hp]
      simp only
      by_cases hl : rest.length = r.length
      · rw [if_pos hl, if_pos hl]
        simp [HS.slotAt, hc]
      · rw [if_neg hl, if_neg hl]
        obtain ⟨m, hm⟩ := h.name rest hp hl
        simp [HS.slotAt, hm]
    · rw [if_neg hp, if_neg hp]

/-! ### When one section is changed -/

/-- What a section, or the manager with that section, has under a name. -/
def childOf (v : HVal) (mattrs attrs map : List (String × Nat)) (y : String) : Option HVal :=
  match v with
  | .mgr => match AList.get? mattrs y with
    | some r => some (.ref r)
    | none => HS.sectChild attrs map y
  | _ => HS.sectChild attrs map y

/-- `v` is the manager or a section, with its attributes in the object at `k`. -/
def HS.At (s : HS V) (v : HVal) (k : Nat) : Prop := (v = .mgr ∧ k = s.section_) ∨ v = .ref k

theorem HS.child_of {s : HS V} {v : HVal} {k : Nat} (hk : s.At v k) {nm cfg attrs map}
    (ho : s.heap[k]? = some (.sect nm cfg attrs map)) {y : String} (hy : y ≠ nm)
    (hr : y ∉ (if v = .mgr then managerReserved else sectionReserved)) : s.child v y = childOf v s.attrs attrs map y := by
  rcases hk with ⟨rfl, rfl⟩ | rfl
  · rw [if_pos rfl] at hr
    exact HS.child_mgr ho hy hr
  · rw [if_neg (by simp)] at hr
    exact HS.child_sect ho hy hr

/-- The name and the object of the section at a path. -/
theorem HS.at_name {s : HS V} (hi : HInv s) {q : List String} (hq : CleanPath s.rootName q) {v : HVal} (hv : s.find q = some v)
    {k : Nat} (hk : s.At v k) {nm cfg attrs map} (ho : s.heap[k]? = some (.sect nm cfg attrs map)) :
    nm = q.getLast?.getD s.rootName ∧ (v = .mgr ↔ q = []) := by
  rcases hk with ⟨rfl, rfl⟩ | rfl
  · have hq' := find_mgr hv
    subst hq'
    obtain ⟨cfg', attrs', map', hs⟩ := hi.root
    rw [hs] at ho
    cases ho
    exact ⟨rfl, by simp⟩
  · refine ⟨hi.name q k nm cfg attrs map hq hv ho, by simp, ?_⟩
    intro h; subst h; rw [HS.find_nil] at hv; cases hv

theorem HS.patch_of {s s' : HS V} (hi : HInv s) {q : List String} {x : String} (hcl : CleanPath s.rootName (q ++ [x])) {v : HVal}
    (hv : s.find q = some v) {k : Nat} (hk : s.At v k) {nm cfg attrs map attrs' map'}
    (ho : s.heap[k]? = some (.sect nm cfg attrs map)) (h1 : s'.fs = s.fs) (h2 : s'.rootName = s.rootName)
    (h3 : s'.section_ = s.section_) (h4 : s'.localConf = s.localConf) (h5 : s'.heap.length = s.heap.length)
    (hoff : ∀ j, j ≠ k → s'.heap[j]? = s.heap[j]?) (ho' : s'.heap[k]? = some (.sect nm cfg attrs' map'))
    (ha : v ≠ .mgr → s'.attrs = s.attrs)
    (hne : ∀ y, y ≠ x → childOf v s'.attrs attrs' map' y = childOf v s.attrs attrs map y) :
    s.Resect s' ∧ (∀ r, childOf v s'.attrs attrs' map' x = some (.ref r) → s.Patch s' q x r) ∧
    (childOf v s'.attrs attrs' map' x = childOf v s.attrs attrs map x → s.Still s') := by
  obtain ⟨hq, hx, hr⟩ := cleanPath_concat.1 hcl
  obtain ⟨hn, hmq⟩ := HS.at_name hi hq hv hk ho
  have hk' : s'.At v k := by unfold HS.At; rw [h3]; exact hk
  have hres : s.Resect s' := by
    refine ⟨h1, h2, h3, h4, h5, ?_⟩
    intro j
    by_cases hj : j = k
    · subst hj; exact .inr ⟨_, _, _, _, _, _, ho, ho'⟩
    · exact .inl (hoff j hj)
  have hxr : x ∉ (if v = .mgr then managerReserved else sectionReserved) := by
    by_cases hq0 : q = []
    · rw [if_pos hq0] at hr; rw [if_pos (hmq.2 hq0)]; exact hr
    · rw [if_neg hq0] at hr; rw [if_neg (fun h => hq0 (hmq.1 h))]; exact hr
  have hchx : s'.child v x = childOf v s'.attrs attrs' map' x := HS.child_of hk' ho' (hn ▸ hx) hxr
  have hchx0 : s.child v x = childOf v s.attrs attrs map x := HS.child_of hk ho (hn ▸ hx) hxr
  have hchild : ∀ q1 y w, CleanPath s.rootName (q1 ++ [y]) → s.find q1 = some w → q1 ++ [y] ≠ q ++ [x] →
      s'.child w y = s.child w y := by
    intro q1 y w hcl1 hw hne1
    obtain ⟨hq1, hy, hyr⟩ := cleanPath_concat.1 hcl1
    by_cases hqq : q1 = q
    · subst hqq
      rw [hv] at hw
      cases hw
      have hyx : y ≠ x := fun e => hne1 (by rw [e])
      have hyr' : y ∉ (if v = .mgr then managerReserved else sectionReserved) := by
        by_cases hq0 : q1 = []
        · rw [if_pos hq0] at hyr; rw [if_pos (hmq.2 hq0)]; exact hyr
        · rw [if_neg hq0] at hyr; rw [if_neg (fun h => hq0 (hmq.1 h))]; exact hyr
      rw [HS.child_of hk' ho' (hn ▸ hy) hyr', HS.child_of hk ho (hn ▸ hy) hyr', hne y hyx]
    · refine child_eq hi hcl1 hw ?_ h3 ?_
      · intro hq1n
        subst hq1n
        rw [ha (fun h => hqq (hmq.1 h).symm)]
      · intro j hj
        refine .inl (.inl (hoff j ?_))
        intro hjk
        subst hjk
        rcases hj with rfl | ⟨rfl, rfl⟩
        · rcases hk with ⟨rfl, e⟩ | rfl
          · exact hi.find_ne_root hq1 hw e
          · exact hqq (hi.find_inj hq1 hq hw hv)
        · have e1 := find_mgr hw
          subst e1
          rcases hk with ⟨e, -⟩ | rfl
          · exact hqq (hmq.1 e).symm
          · exact hi.find_ne_root hq hv rfl
  refine ⟨hres, ?_, ?_⟩
  · intro r hcr
    exact { toResect := hres, clean := hcl, child := hchild, here := ⟨v, hv, hchx.trans hcr⟩ }
  · intro hsame
    refine hres.still hi ?_
    intro q'
    induction q' using snoc_induction with
    | h0 => intro _; rfl
    | h1 q1 y ih =>
      intro hq1y
      have hq1 := (cleanPath_concat.1 hq1y).1
      rw [HS.find_concat, HS.find_concat, ih hq1]
      cases hf : s.find q1 with
      | none => rfl
      | some w =>
        show s'.child w y = s.child w y
        by_cases hqq : q1 ++ [y] = q ++ [x]
        · obtain ⟨e1, e2⟩ := List.append_inj' hqq rfl
          simp at e2
          subst e1; subst e2
          rw [hv] at hf
          cases hf
          rw [hchx, hchx0, hsame]
        · exact hchild q1 y w hq1y hf hqq

theorem childOf_set {v : HVal} {mattrs attrs map : List (String × Nat)} {x y : String} (h : y ≠ x) (r : Nat) :
    childOf v mattrs attrs (AList.set map x r) y = childOf v mattrs attrs map y ∧
    childOf v mattrs (AList.set attrs x r) map y = childOf v mattrs attrs map y ∧
    childOf v (AList.set mattrs x r) attrs map y = childOf v mattrs attrs map y := by
  unfold childOf HS.sectChild
  simp only [AList.get?_set, if_neg h, if_neg (fun e => h (Eq.symm e)), and_self]

/-- Something new in the `config_map` of a section. -/
theorem HS.append_of {s : HS V} (hi : HInv s) {q : List String} {x : String} (hcl : CleanPath s.rootName (q ++ [x])) {v : HVal}
    (hv : s.find q = some v) {k : Nat} (hk : s.At v k) {nm cfg attrs map} (ho : s.heap[k]? = some (.sect nm cfg attrs map)) (r : Nat) :
    s.Resect { s with heap := s.heap.set k (.sect nm cfg attrs (AList.set map x r)) } ∧
    (childOf v s.attrs attrs (AList.set map x r) x = some (.ref r) →
      s.Patch { s with heap := s.heap.set k (.sect nm cfg attrs (AList.set map x r)) } q x r) ∧
    (childOf v s.attrs attrs (AList.set map x r) x = childOf v s.attrs attrs map x →
      s.Still { s with heap := s.heap.set k (.sect nm cfg attrs (AList.set map x r)) }) := by
  obtain ⟨h1, h2, h3⟩ := HS.patch_of (s' := { s with heap := s.heap.set k (.sect nm cfg attrs (AList.set map x r)) })
    (attrs' := attrs) (map' := AList.set map x r) hi hcl hv hk ho rfl rfl rfl rfl (by simp)
    (fun j hj => List.getElem?_set_ne (fun e => hj e.symm))
    (by simp [(List.getElem?_eq_some_iff.1 ho).1]) (fun _ => rfl) (fun y hy => (childOf_set hy r).1)
  exact ⟨h1, h2 r, h3⟩

/-- Another object as an attribute of a section or of the manager. -/
theorem HS.setattr_of {s : HS V} (hi : HInv s) {q : List String} {x : String} (hcl : CleanPath s.rootName (q ++ [x])) {v : HVal}
    (hv : s.find q = some v) {k : Nat} (hk : s.At v k) {nm cfg attrs map} (ho : s.heap[k]? = some (.sect nm cfg attrs map)) (r : Nat) :
    s.Patch (s.setattr v x r) q x r ∧ ∃ attrs', (s.setattr v x r).heap[k]? = some (.sect nm cfg attrs' map) ∧
      ∀ m, childOf v (s.setattr v x r).attrs attrs' m x = some (.ref r) := by
  obtain ⟨hq, hx, hr⟩ := cleanPath_concat.1 hcl
  obtain ⟨hn, hmq⟩ := HS.at_name hi hq hv hk ho
  rcases hk with ⟨rfl, rfl⟩ | rfl
  · have hq0 := hmq.1 rfl
    subst hq0
    rw [if_pos rfl] at hr
    obtain ⟨e1, e2, -⟩ := mem_managerReserved hr
    have he : s.setattr .mgr x r = { s with attrs := AList.set s.attrs x r } := by
      unfold HS.setattr
      simp only
      rw [if_neg e1, if_neg e2]
    rw [he]
    obtain ⟨-, h2, -⟩ := HS.patch_of (s' := { s with attrs := AList.set s.attrs x r }) (attrs' := attrs) (map' := map)
      hi hcl hv (.inl ⟨rfl, rfl⟩) ho rfl rfl rfl rfl rfl (fun j hj => rfl) ho (fun h => absurd rfl h)
      (fun y hy => (childOf_set hy r).2.2)
    exact ⟨h2 r (by simp [childOf, AList.get?_set]), attrs, ho, fun m => by simp [childOf, AList.get?_set]⟩
  · have hq0 : q ≠ [] := fun h => by have := hmq.2 h; cases this
    rw [if_neg hq0] at hr
    have he : s.setattr (.ref k) x r = { s with heap := s.heap.set k (.sect nm cfg (AList.set attrs x r) map) } := by
      unfold HS.setattr
      simp only [ho]
      rw [if_neg (mem_sectionReserved hr)]
    rw [he]
    obtain ⟨-, h2, -⟩ := HS.patch_of (s' := { s with heap := s.heap.set k (.sect nm cfg (AList.set attrs x r) map) })
      (attrs' := AList.set attrs x r) (map' := map) hi hcl hv (.inr rfl) ho rfl rfl rfl rfl (by simp)
      (fun j hj => List.getElem?_set_ne (fun e => hj e.symm))
      (by simp [(List.getElem?_eq_some_iff.1 ho).1]) (fun _ => rfl) (fun y hy => (childOf_set hy r).2.1)
    exact ⟨h2 r (by simp [childOf, HS.sectChild, AList.get?_set]), AList.set attrs x r,
      by simp [(List.getElem?_eq_some_iff.1 ho).1], fun m => by simp [childOf, HS.sectChild, AList.get?_set]⟩

/-! ### What a reset does to the sections -/

/-- After objects were put at a path: there are the objects of the tree `n`, all of them new, and nothing else has changed. -/
structure HS.Grown (s s' : HS V) (p : List String) (n : Node V) : Prop where
  inv : HInv s'
  fs : s'.fs = s.fs
  rootName : s'.rootName = s.rootName
  view : s'.view = (s.view.graft p n).clean
  others : ∀ a, a.Clean s.rootName → ¬ a.Under p → s'.place a = s.place a
  fresh : ∀ a, a.Clean s.rootName → a.Under p → ∀ r, s'.place a = some r → s.heap.length ≤ r
  length : s.heap.length ≤ s'.heap.length
  confs : ∀ (k : Nat) (c : Conf V), s.heap[k]? = some (.conf c) → s'.heap[k]? = some (.conf c)

theorem HS.grown_of {s s' : HS V} (hi : HInv s) {t : List (HObj V)} {q : List String} {x : String} {r : Nat} {n : Node V}
    (h : HS.Patch { s with heap := s.heap ++ t } s' q x r)
    (hb : HS.Below { s with heap := s.heap ++ t } s' s.heap.length (q ++ [x]) r n) : s.Grown s' (q ++ [x]) n := by
  refine ⟨h.inv hb (HS.inv_alloc hi t), h.fs, h.rootName, ?_, ?_, ?_, ?_, ?_⟩
  · rw [h.view hb, HS.view_alloc hi t]
  · intro a ha hu
    rw [h.place_off ha hu]
    exact HS.place_alloc hi t a ha
  · intro a ha hu j hj
    obtain ⟨b, rest, rfl⟩ := Place.under_iff.1 hu
    rw [h.place_on] at hj
    exact (hb.range rest b j (Place.under_clean ha) hj).1
  · rw [h.length]; simp
  · intro k c hk
    refine h.conf.2 ?_
    show (s.heap ++ t)[k]? = _
    rw [List.getElem?_append_left (List.getElem?_eq_some_iff.1 hk).1]
    exact hk

theorem HS.attr_alloc {s : HS V} (hi : HInv s) (t : List (HObj V)) {q : List String} (hq : CleanPath s.rootName q) {v : HVal}
    (hv : s.find q = some v) (x : String) : HS.attr { s with heap := s.heap ++ t } v x = s.attr v x := by
  have hob : ∀ k, k < s.heap.length → HS.obj { s with heap := s.heap ++ t } k = s.obj k := by
    intro k hk
    unfold HS.obj
    simp only [List.getElem?_append_left hk]
  rcases HS.find_cases hv with rfl | ⟨k, rfl⟩
  · unfold HS.attr
    simp only
    rw [hob _ (hi.bound .root _ trivial rfl)]
  · unfold HS.attr
    simp only
    rw [hob _ (hi.find_bound hq hv)]

/-- The section (or the manager) that has what a path leads to. -/
theorem HS.parent_sect {s : HS V} (hi : HInv s) {q : List String} {x : String} {w : HVal} (h : s.find (q ++ [x]) = some w) :
    ∃ v k nm cfg attrs map, s.find q = some v ∧ s.At v k ∧ s.heap[k]? = some (.sect nm cfg attrs map) := by
  obtain ⟨v, hv⟩ := HS.find_parent h
  rw [HS.find_concat, hv] at h
  rcases HS.find_cases hv with rfl | ⟨k, rfl⟩
  · obtain ⟨cfg, attrs, map, hs⟩ := hi.root
    exact ⟨_, _, _, _, _, _, hv, .inl ⟨rfl, rfl⟩, hs⟩
  · obtain ⟨nm, cfg, attrs, map, ho⟩ := HS.sect_of_child h
    exact ⟨_, _, _, _, _, _, hv, .inr rfl, ho⟩

/-- Where a path that leads to nothing leaves what is there. -/
theorem HS.walk_keyError {s : HS V} (hi : HInv s) {p : List String} : CleanPath s.rootName p →
    s.walk .mgr p = .error .keyError → ∃ q x r v k nm cfg attrs map, p = q ++ [x] ++ r ∧ s.find q = some v ∧ s.At v k ∧
      s.heap[k]? = some (.sect nm cfg attrs map) ∧ s.attr v x = .error .keyError := by
  induction p using snoc_induction with
  | h0 => intro _ h; cases h
  | h1 p y ih =>
    intro hp h
    have hp0 := (cleanPath_concat.1 hp).1
    rw [HS.walk_append] at h
    cases hw : s.walk .mgr p with
    | error e =>
      rw [hw] at h
      simp only at h
      cases h
      obtain ⟨q, x, r, v, k, nm, cfg, attrs, map, rfl, h1⟩ := ih hp0 hw
      exact ⟨q, x, r ++ [y], v, k, nm, cfg, attrs, map, by simp, h1⟩
    | ok v =>
      rw [hw] at h
      simp only [HS.walk] at h
      have ha : s.attr v y = .error .keyError := by
        cases ha : s.attr v y with
        | error e => rw [ha] at h; exact h
        | ok v' => rw [ha] at h; cases h
      cases v with
      | none => cases ha
      | other => cases ha
      | mgr =>
        have hf : s.find p = some .mgr := by unfold HS.find; rw [hw]
        obtain ⟨cfg, attrs, map, hs⟩ := hi.root
        exact ⟨p, y, [], _, _, _, _, _, _, by simp, hf, .inl ⟨rfl, rfl⟩, hs, ha⟩
      | ref k =>
        have hf : s.find p = some (.ref k) := by unfold HS.find; rw [hw]
        cases ho : s.heap[k]? with
        | none => have := hi.find_bound hp0 hf; rw [List.getElem?_eq_none_iff] at ho; omega
        | some o =>
          cases o with
          | conf c =>
            rw [HS.attr_conf ho] at ha
            exfalso
            unfold Conf.getattr at ha
            cases hg : c.values.get? y with
            | none => rw [hg] at ha; cases ha
            | some u => rw [hg] at ha; cases ha
          | file l => rw [HS.attr_file ho] at ha; cases ha
          | sect nm cfg attrs map => exact ⟨p, y, [], _, _, _, _, _, _, by simp, hf, .inr rfl, ho, ha⟩

theorem HS.attr_error_childOf {s : HS V} (hi : HInv s) {q : List String} {x : String} (hcl : CleanPath s.rootName (q ++ [x]))
    {v : HVal} (hv : s.find q = some v) {k : Nat} (hk : s.At v k) {nm cfg attrs map}
    (ho : s.heap[k]? = some (.sect nm cfg attrs map)) {e : PyErr} (ha : s.attr v x = .error e) :
    childOf v s.attrs attrs map x = none := by
  obtain ⟨hq, hx, hr⟩ := cleanPath_concat.1 hcl
  obtain ⟨hn, hmq⟩ := HS.at_name hi hq hv hk ho
  rw [← HS.child_of hk ho (hn ▸ hx)]
  · unfold HS.child; rw [ha]
  · by_cases hq0 : q = []
    · rw [if_pos hq0] at hr; rw [if_pos (hmq.2 hq0)]; exact hr
    · rw [if_neg hq0] at hr; rw [if_neg (fun h => hq0 (hmq.1 h))]; exact hr

theorem childOf_append {v : HVal} {mattrs attrs map : List (String × Nat)} {x : String}
    (h : childOf v mattrs attrs map x = none) (r : Nat) : childOf v mattrs attrs (AList.set map x r) x = some (.ref r) := by
  unfold childOf HS.sectChild at h ⊢
  simp only [AList.get?_set, if_true]
  cases v with
  | mgr =>
    simp only at h ⊢
    cases h1 : AList.get? mattrs x with
    | some j => rw [h1] at h; cases h
    | none =>
      rw [h1] at h
      simp only at h ⊢
      cases h2 : AList.get? attrs x with
      | some j => rw [h2] at h; cases h
      | none => rfl
  | ref k =>
    simp only at h ⊢
    cases h2 : AList.get? attrs x with
    | some j => rw [h2] at h; cases h
    | none => rfl
  | none =>
    simp only at h ⊢
    cases h2 : AList.get? attrs x with
    | some j => rw [h2] at h; cases h
    | none => rfl
  | other =>
    simp only at h ⊢
    cases h2 : AList.get? attrs x with
    | some j => rw [h2] at h; cases h
    | none => rfl

/-- Something in the `config_map` is found, or something else hides it. -/
theorem childOf_append_or (v : HVal) (mattrs attrs map : List (String × Nat)) (x : String) (r : Nat) :
    childOf v mattrs attrs (AList.set map x r) x = some (.ref r) ∨
    childOf v mattrs attrs (AList.set map x r) x = childOf v mattrs attrs map x := by
  unfold childOf HS.sectChild
  simp only [AList.get?_set, if_true]
  cases v with
  | mgr =>
    cases AList.get? mattrs x with
    | some j => exact .inr rfl
    | none =>
      cases AList.get? attrs x with
      | some j => exact .inr rfl
      | none => exact .inl rfl
  | ref k =>
    cases AList.get? attrs x with
    | some j => exact .inr rfl
    | none => exact .inl rfl
  | none =>
    cases AList.get? attrs x with
    | some j => exact .inr rfl
    | none => exact .inl rfl
  | other =>
    cases AList.get? attrs x with
    | some j => exact .inr rfl
    | none => exact .inl rfl

namespace HM

theorem append_run {s : HS V} {v : HVal} {k : Nat} (hk : s.At v k) {nm cfg attrs map}
    (ho : s.heap[k]? = some (.sect nm cfg attrs map)) (x : String) (r : Nat) :
    append v x r s = (.ok (), { s with heap := s.heap.set k (.sect nm cfg attrs (AList.set map x r)) }) := by
  unfold append
  rw [M.bind_ok (M.get_run s)]
  rcases hk with ⟨rfl, rfl⟩ | rfl
  · rw [M.bind_run, M.liftE_run]
    simp only [ho]
    rfl
  · rw [M.bind_run, M.liftE_run]
    simp only [ho]
    rfl

theorem setWithCreate_walk {s : HS V} (ρ : Nat) (x : String) (r : List String) (q : List String) : ∀ {v0 v : HVal},
    s.walk v0 q = .ok v → setWithCreate v0 ρ (q ++ x :: r) s = setWithCreate v ρ (x :: r) s := by
  induction q with
  | nil => intro v0 v h; cases h; rfl
  | cons z q ih =>
    intro v0 v h
    rw [HS.walk] at h
    cases ha : s.attr v0 z with
    | error e => rw [ha] at h; cases h
    | ok v1 =>
      rw [ha] at h
      rw [← ih h]
      obtain ⟨y, p, e⟩ : ∃ y p, q ++ x :: r = y :: p := by
        cases q with
        | nil => exact ⟨_, _, rfl⟩
        | cons y q => exact ⟨_, _, rfl⟩
      rw [List.cons_append, e, setWithCreate, M.bind_ok (M.get_run s)]
      simp only [ha]

end HM

/-- The sections themselves. -/
def chain (ρ : Nat) : Nat → String → List String → List (HObj V)
  | _, _, [] => []
  | k, x, y :: r => .sect x none [] [(y, chainTop ρ (k + 1) r)] :: chain ρ (k + 1) y r

theorem hasChain_append (ρ : Nat) (r : List String) : ∀ (A : List (HObj V)) (x : String),
    HasChain (A ++ chain ρ A.length x r) ρ A.length x r := by
  induction r with
  | nil => intro A x; trivial
  | cons y r ih =>
    intro A x
    refine ⟨?_, ?_⟩
    · simp [chain, chainTop]
    · have := ih (A ++ [.sect x none [] [(y, chainTop ρ (A.length + 1) r)]]) y
      simpa [chain] using this

namespace HM

theorem setWithCreate_chain (ρ : Nat) (r : List String) : ∀ {s : HS V} {x : String} {H : List (HObj V)},
    s.heap = H ++ [.sect x none [] []] → r ≠ [] → NotReserved sectionReserved r →
    setWithCreate (.ref H.length) ρ r s = (.ok (), { s with heap := H ++ chain ρ H.length x r }) := by
  induction r with
  | nil => intro s x H _ h; exact absurd rfl h
  | cons y r ih =>
    intro s x H hs _ hr
    obtain ⟨hy, hr⟩ := hr
    have ho : s.heap[H.length]? = some (.sect x none [] []) := by rw [hs]; simp
    cases r with
    | nil =>
      rw [setWithCreate, append_run (.inr rfl) ho, hs]
      simp [chain, chainTop, AList.set]
    | cons z r =>
      rw [setWithCreate, M.bind_ok (M.get_run s)]
      have ha : s.attr (.ref H.length) y = .error .keyError := by
        simp only [HS.attr, HS.obj, ho, HS.objAttr, HS.sectAttr]
        rw [if_neg (mem_sectionReserved hy), if_neg hy]
        rfl
      simp only [ha]
      rw [M.bind_ok (M.modify_run _ _)]
      have ho1 : (s.alloc (.sect y none [] [])).2.heap[H.length]? = some (.sect x none [] []) := by
        show (s.heap ++ _)[H.length]? = _
        rw [hs]; simp
      rw [M.bind_ok (append_run (.inr rfl) ho1 y _), M.bind_ok (M.get_run _)]
      have hh2 : ((s.alloc (.sect y none [] [])).2.heap.set H.length
          (.sect x none [] (AList.set [] y (s.alloc (.sect y none [] [])).1))) =
          (H ++ [.sect x none [] [(y, H.length + 1)]]) ++ [.sect y none [] []] := by
        show (s.heap ++ [_]).set _ _ = _
        rw [hs]
        simp [HS.alloc, hs, AList.set]
      rw [hh2]
      have ha2 : HS.attr { (s.alloc (.sect y none [] [])).2 with
          heap := (H ++ [.sect x none [] [(y, H.length + 1)]]) ++ [.sect y none [] []] } (.ref H.length) y =
          .ok (.ref (H.length + 1)) := by
        simp only [HS.attr, HS.obj]
        rw [List.append_assoc, List.getElem?_append_right (Nat.le_refl _)]
        simp only [Nat.sub_self, List.singleton_append, List.getElem?_cons_zero, HS.objAttr, HS.sectAttr]
        rw [if_neg (mem_sectionReserved hy), if_neg hy]
        simp [AList.get?]
      rw [M.bind_run, M.liftE_run, ha2]
      simp only
      have := ih (s := { (s.alloc (.sect y none [] [])).2 with
          heap := (H ++ [.sect x none [] [(y, H.length + 1)]]) ++ [.sect y none [] []] }) (x := y)
        (H := H ++ [.sect x none [] [(y, H.length + 1)]]) rfl (by simp) hr
      rw [List.length_append, List.length_singleton] at this
      rw [this]
      simp [chain, HS.alloc, chainTop]

theorem setWithCreate_new {s : HS V} (hi : HInv s) {q : List String} {x : String} (hcl : CleanPath s.rootName (q ++ [x]))
    {v : HVal} (hv : s.find q = some v) {k : Nat} (hk : s.At v k) {nm cfg attrs map}
    (ho : s.heap[k]? = some (.sect nm cfg attrs map)) (ha : s.attr v x = .error .keyError) (ρ : Nat) (r : List String)
    (hr : NotReserved sectionReserved r) :
    setWithCreate v ρ (x :: r) s = (.ok (), { s with
      heap := s.heap.set k (.sect nm cfg attrs (AList.set map x (chainTop ρ s.heap.length r))) ++ chain ρ s.heap.length x r }) := by
  have hkl : k < s.heap.length := (List.getElem?_eq_some_iff.1 ho).1
  cases r with
  | nil =>
    rw [setWithCreate, append_run hk ho]
    simp [chain, chainTop]
  | cons y r =>
    rw [setWithCreate, M.bind_ok (M.get_run s)]
    simp only [ha]
    rw [M.bind_ok (M.modify_run _ _)]
    have ho1 : (s.alloc (.sect x none [] [])).2.heap[k]? = some (.sect nm cfg attrs map) := by
      show (s.heap ++ _)[k]? = _
      rw [List.getElem?_append_left hkl]; exact ho
    have hk1 : HS.At (s.alloc (.sect x none [] [])).2 v k := hk
    rw [M.bind_ok (append_run hk1 ho1 x _), M.bind_ok (M.get_run _)]
    have hh2 : ((s.alloc (.sect x none [] [])).2.heap.set k
        (.sect nm cfg attrs (AList.set map x (s.alloc (.sect x none [] [])).1))) =
        s.heap.set k (.sect nm cfg attrs (AList.set map x s.heap.length)) ++ [.sect x none [] []] := by
      show (s.heap ++ [_]).set _ _ = _
      rw [List.set_append_left _ _ hkl]
      rfl
    rw [hh2]
    generalize hs2 : ({ (s.alloc (.sect x none [] [])).2 with
        heap := s.heap.set k (.sect nm cfg attrs (AList.set map x s.heap.length)) ++ [.sect x none [] []] } : HS V) = s2
    have ho2 : s2.heap[k]? = some (.sect nm cfg attrs (AList.set map x s.heap.length)) := by
      rw [← hs2]
      show (s.heap.set k _ ++ _)[k]? = _
      rw [List.getElem?_append_left (by simpa using hkl)]
      simp [hkl]
    have hk2 : s2.At v k := by rw [← hs2]; exact hk
    have ha2 : s2.attr v x = .ok (.ref s.heap.length) := by
      obtain ⟨hq, hx, hr'⟩ := cleanPath_concat.1 hcl
      obtain ⟨hn, hmq⟩ := HS.at_name hi hq hv hk ho
      have hc := HS.child_of hk2 ho2 (y := x) (hn ▸ hx) (by
        by_cases hq0 : q = []
        · rw [if_pos hq0] at hr'; rw [if_pos (hmq.2 hq0)]; exact hr'
        · rw [if_neg hq0] at hr'; rw [if_neg (fun h => hq0 (hmq.1 h))]; exact hr')
      have hm : s2.attrs = s.attrs := by rw [← hs2]; rfl
      rw [hm, childOf_append (HS.attr_error_childOf hi hcl hv hk ho ha)] at hc
      unfold HS.child at hc
      split at hc
      · rename_i hh; cases hc; exact hh
      · cases hc
    rw [M.bind_run, M.liftE_run, ha2]
    simp only
    have := setWithCreate_chain ρ (y :: r) (s := s2) (x := x)
      (H := s.heap.set k (.sect nm cfg attrs (AList.set map x s.heap.length))) (by rw [← hs2]) (by simp) hr
    rw [List.length_set] at this
    rw [this, ← hs2]
    simp [chainTop, HS.alloc]

end HM

end Verif.Model
