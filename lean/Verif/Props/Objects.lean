import Verif.Lemmas.ObjectMatch

/-
C114: each item has one config object of its own.
-/

namespace Verif.Props
open Verif.Py Verif.Model
variable {V : Type}

/-- A place with a config object is found by asking for it. -/
theorem found_of_place {s : HS V} (hf : s.Fine) {p : List String} (hp : CleanPath s.rootName p) {pl : Place}
    (hpl : pl = .item p ∨ pl = .cfg p ∧ p ≠ []) {r : Nat} {c : Conf V} (hr : s.place pl = some r)
    (hc : s.heap[r]? = some (.conf c)) : s.Target (some p) pl ∧ s.view.ownAt pl = .ok (some c) := by
  rcases hpl with rfl | ⟨rfl, hne⟩
  · have hsl : s.hslot p = .conf c := by
      simp only [HS.place] at hr
      unfold HS.hslot
      cases hfd : s.find p with
      | none => rw [hfd] at hr; cases hr
      | some v =>
        rw [hfd] at hr
        rcases HS.find_cases hfd with rfl | ⟨k, rfl⟩
        · cases hr
        · cases hr; simp [HS.slotAt, hc]
    refine ⟨.item hp (by rw [hsl]; rfl), ?_⟩
    simp only [View.ownAt, View.own, HS.view_slot hp, hsl]
  · have hsl : s.hslot p = .sect (some c) := by
      have key : ∀ k, s.cfgOf k = some r → s.slotAt k = .sect (some c) := by
        intro k hk
        unfold HS.cfgOf at hk
        unfold HS.slotAt
        split at hk
        · rename_i hk'
          rw [hk']
          simp [hk, HS.confAt, hc]
        · cases hk
      simp only [HS.place] at hr
      unfold HS.hslot
      cases hfd : s.find p with
      | none => rw [hfd] at hr; cases hr
      | some v =>
        rw [hfd] at hr
        rcases HS.find_cases hfd with rfl | ⟨k, rfl⟩
        · exact key _ hr
        · exact key k hr
    exact ⟨.sect hp hne hsl, by simp only [View.ownAt, View.sectCfg, HS.view_slot hp, hsl]⟩

/-- The place that `get` is about. -/
theorem place_of_target {s : HS V} (hi : HInv s) {p : List String} {pl : Place} (h : s.Target (some p) pl) :
    pl = .item p ∨ pl = .cfg p ∧ p ≠ [] := by
  cases h with
  | item _ _ => exact .inl rfl
  | sect _ hne _ => exact .inr ⟨rfl, hne⟩

/-- Asking for the config of an item or section gives the same object each time, as long as the item is not reset, whatever
else is called in between and whatever is done to config objects. -/
theorem C114_same_object [BEq V] {fs : Files V} {rn : String} {s0 : HS V} (hl : HS.load fs rn = .ok s0)
    {before after : List (HAct V)} (hb : s0.Covers before) {p : List String} (hp : CleanPath rn p) {r : Nat} {s1 : HS V}
    (h1 : HM.get p (s0.acts before) = (.ok (some r), s1)) (ha : s1.Covers after)
    (hno : s1.Spares (.item p) after) :
    ∃ s2, HM.get p (s1.acts after) = (.ok (some r), s2) := by
  have hrn : s0.rootName = rn := (HS.load_ok hl).2.1
  have hf0 := HS.Covers.fine hb (HS.load_fine hl)
  have hrn0 : (s0.acts before).rootName = rn := by rw [HS.Covers.rootName hb (HS.load_fine hl), hrn]
  obtain ⟨pl, c, ht, hown, hd⟩ := HS.get_done hf0 (by rw [hrn0]; exact hp) h1
  have hpl := place_of_target hf0.inv ht
  have hcl := ht.clean
  rw [hrn0] at hcl
  have hrn1 : s1.rootName = rn := by rw [hd.rootName, hrn0]
  have hf1 : s1.Fine := ⟨hd.inv, by
    rw [hd.view]
    refine hf0.own.put ?_
    rw [kGet_file]
    exact hf0.own.ownAt_file ht.clean hown⟩
  have hno' : s1.Spares pl after := by
    rcases hpl with rfl | ⟨rfl, -⟩
    · exact hno
    · exact hno.cfg
  have hh := HS.Covers.holds ha hf1 (by rw [hrn1]; exact hcl) hd.holds hno'
  have hf2 := HS.Covers.fine ha hf1
  have hrn2 : (s1.acts after).rootName = rn := by rw [HS.Covers.rootName ha hf1, hrn1]
  obtain ⟨c2, hc2⟩ := hh.conf
  obtain ⟨ht2, hown2⟩ := found_of_place hf2 (by rw [hrn2]; exact hp) hpl hh.place hc2
  have hg := HM.get_run hf2.inv hf2.own ht2
  rw [hown2] at hg
  obtain ⟨r', s2, hg, hd2⟩ := hg
  have hsame := hd2.same (fun p l e => hh.not_file p l e)
  rw [hh.place] at hsame
  cases hsame
  exact ⟨s2, hg⟩

/-- Two items or sections never have the same object, at the same time or one after the other. -/
theorem C114_own_object [BEq V] {fs : Files V} {rn : String} {s0 : HS V} (hl : HS.load fs rn = .ok s0)
    {before after : List (HAct V)} (hb : s0.Covers before) {p q : List String} (hp : CleanPath rn p) (hq : CleanPath rn q)
    (hne : p ≠ q) {r r' : Nat} {s1 s2 : HS V}
    (h1 : HM.get p (s0.acts before) = (.ok (some r), s1)) (ha : s1.Covers after)
    (h2 : HM.get q (s1.acts after) = (.ok (some r'), s2)) : r' ≠ r := by
  have hrn : s0.rootName = rn := (HS.load_ok hl).2.1
  have hf0 := HS.Covers.fine hb (HS.load_fine hl)
  have hrn0 : (s0.acts before).rootName = rn := by rw [HS.Covers.rootName hb (HS.load_fine hl), hrn]
  obtain ⟨pl, c, ht, hown, hd⟩ := HS.get_done hf0 (by rw [hrn0]; exact hp) h1
  have hrn1 : s1.rootName = rn := by rw [hd.rootName, hrn0]
  have hf1 : s1.Fine := ⟨hd.inv, by
    rw [hd.view]
    refine hf0.own.put ?_
    rw [kGet_file]
    exact hf0.own.ownAt_file ht.clean hown⟩
  have haway := HS.Covers.away ha hf1 (hd.away ht.clean)
  have hf2 := HS.Covers.fine ha hf1
  have hrn2 : (s1.acts after).rootName = rn := by rw [HS.Covers.rootName ha hf1, hrn1]
  obtain ⟨ql, c', ht2, hown2, hd2⟩ := HS.get_done hf2 (by rw [hrn2]; exact hq) h2
  have hneq : ql ≠ pl := by
    rcases place_of_target hf0.inv ht with rfl | ⟨rfl, -⟩ <;> rcases place_of_target hf2.inv ht2 with rfl | ⟨rfl, -⟩
    · intro e; cases e; exact hne rfl
    · intro e; cases e
    · intro e; cases e
    · intro e; cases e; exact hne rfl
  rintro rfl
  have := haway.away ql (ht2.clean) hneq
  by_cases hfile : ∃ p l, ql = .item p ∧ (s1.acts after).hslot p = .file l
  · have h3 := hd2.fresh hfile
    have h4 := haway.old
    omega
  · exact this (hd2.same (fun p l e hs => hfile ⟨p, l, e, hs⟩))

/-- Nor does an item or section ever have the object of the local config. -/
theorem C114_local_own [BEq V] {fs : Files V} {rn : String} {s0 : HS V} (hl : HS.load fs rn = .ok s0)
    {before after : List (HAct V)} (hb : s0.Covers before) {p : List String} (hp : CleanPath rn p) {r : Nat} {s1 : HS V}
    (h1 : HM.get p (s0.acts before) = (.ok (some r), s1)) (ha : s1.Covers after) : (s1.acts after).localConf ≠ r := by
  have hrn : s0.rootName = rn := (HS.load_ok hl).2.1
  have hf0 := HS.Covers.fine hb (HS.load_fine hl)
  have hrn0 : (s0.acts before).rootName = rn := by rw [HS.Covers.rootName hb (HS.load_fine hl), hrn]
  obtain ⟨pl, c, ht, hown, hd⟩ := HS.get_done hf0 (by rw [hrn0]; exact hp) h1
  have hf1 : s1.Fine := ⟨hd.inv, by
    rw [hd.view]
    refine hf0.own.put ?_
    rw [kGet_file]
    exact hf0.own.ownAt_file ht.clean hown⟩
  have haway := HS.Covers.away ha hf1 (hd.away ht.clean)
  have hne : Place.loc ≠ pl := by
    rcases place_of_target hf0.inv ht with rfl | ⟨rfl, -⟩ <;> simp
  intro e
  exact haway.away .loc trivial hne (by simp [HS.place, e])

/-- A change that someone makes to the config object of an item or section, however long they have held it, is seen by
the next who asks for the config; and no other config object changes. -/
theorem C114_touch_seen [BEq V] {fs : Files V} {rn : String} {s0 : HS V} (hl : HS.load fs rn = .ok s0)
    {before after : List (HAct V)} (hb : s0.Covers before) {p : List String} (hp : CleanPath rn p) {r : Nat} {s1 : HS V}
    (h1 : HM.get p (s0.acts before) = (.ok (some r), s1)) (ha : s1.Covers after)
    (hno : s1.Spares (.item p) after) {f : Conf V → Conf V} (hfile : ∀ c, (f c).file = c.file) :
    ∃ c s2, (s1.acts after).heap[r]? = some (.conf c) ∧
      HM.getProjectOrLocal (some p) ((s1.acts after).act (.touch r f)) = (.ok (some r), s2) ∧
      s2.heap[r]? = some (.conf (f c)) ∧
      ∀ (k : Nat) (c' : Conf V), k ≠ r → (s1.acts after).heap[k]? = some (.conf c') → s2.heap[k]? = some (.conf c') := by
  have hrn : s0.rootName = rn := (HS.load_ok hl).2.1
  have hf0 := HS.Covers.fine hb (HS.load_fine hl)
  have hrn0 : (s0.acts before).rootName = rn := by rw [HS.Covers.rootName hb (HS.load_fine hl), hrn]
  obtain ⟨pl, c, ht, hown, hd⟩ := HS.get_done hf0 (by rw [hrn0]; exact hp) h1
  have hpl := place_of_target hf0.inv ht
  have hcl := ht.clean
  rw [hrn0] at hcl
  have hrn1 : s1.rootName = rn := by rw [hd.rootName, hrn0]
  have hf1 : s1.Fine := ⟨hd.inv, by
    rw [hd.view]
    refine hf0.own.put ?_
    rw [kGet_file]
    exact hf0.own.ownAt_file ht.clean hown⟩
  have hno' : s1.Spares pl after := by
    rcases hpl with rfl | ⟨rfl, -⟩
    · exact hno
    · exact hno.cfg
  have hh := HS.Covers.holds ha hf1 (by rw [hrn1]; exact hcl) hd.holds hno'
  have hf2 := HS.Covers.fine ha hf1
  have hrn2 : (s1.acts after).rootName = rn := by rw [HS.Covers.rootName ha hf1, hrn1]
  obtain ⟨c2, hc2⟩ := hh.conf
  have hact : (s1.acts after).act (.touch r f) = (s1.acts after).write r (f c2) := by
    show (match (s1.acts after).heap[r]? with | some (.conf c) => _ | _ => _) = _
    rw [hc2]
  have hf3 : ((s1.acts after).act (.touch r f)).Fine := (HS.effect (a := .touch r f) hf2.inv hf2.own hfile).fine hf2
  rw [hact] at hf3 ⊢
  have hrn3 : ((s1.acts after).write r (f c2)).rootName = rn := hrn2
  have hcw : ((s1.acts after).write r (f c2)).heap[r]? = some (.conf (f c2)) := by
    rw [HS.write_get _ _ _ (List.getElem?_eq_some_iff.1 hc2).1, if_pos rfl]
  have hpw : ((s1.acts after).write r (f c2)).place pl = some r := by
    rw [HS.place_write hf2.inv hc2 _ pl (by rw [hrn2]; exact hcl)]; exact hh.place
  obtain ⟨ht3, hown3⟩ := found_of_place hf3 (by rw [hrn3]; exact hp) hpl hpw hcw
  have hrun := HM.target_run hf3.inv ht3
  rw [hown3] at hrun
  obtain ⟨r', s2, hg, hd3⟩ := hrun
  have hsame := hd3.same (fun p l e => HS.Holds.not_file ⟨hpw, _, hcw⟩ p l e)
  rw [hpw] at hsame
  cases hsame
  refine ⟨c2, s2, hc2, hg, hd3.conf, ?_⟩
  intro k c' hk hkc
  refine hd3.confs k c' ?_ hk
  rw [HS.write_get _ _ _ (List.getElem?_eq_some_iff.1 hc2).1, if_neg hk]
  exact hkc

/-- An update through the manager changes the object that everyone holds, in the way `Conf.update` says, and no other
config object. -/
theorem C114_update_seen [BEq V] {fs : Files V} {rn : String} {s0 : HS V} (hl : HS.load fs rn = .ok s0)
    {before after : List (HAct V)} (hb : s0.Covers before) {p : List String} (hp : CleanPath rn p) {r : Nat} {s1 : HS V}
    (h1 : HM.get p (s0.acts before) = (.ok (some r), s1)) (ha : s1.Covers after)
    (hno : s1.Spares (.item p) after) {d : Option (Dict String V)} {persist : Bool} {kw : Dict String V}
    {r' : Nat} {b : Bool} {s2 : HS V} (h2 : HM.update d (some p) persist kw (s1.acts after) = (.ok (r', b), s2)) :
    r' = r ∧ (∃ c, (s1.acts after).heap[r]? = some (.conf c) ∧
      s2.heap[r]? = some (.conf (if b then c.update d persist kw else c))) ∧
      ∀ (k : Nat) (c' : Conf V), k ≠ r → (s1.acts after).heap[k]? = some (.conf c') → s2.heap[k]? = some (.conf c') := by
  have hrn : s0.rootName = rn := (HS.load_ok hl).2.1
  have hf0 := HS.Covers.fine hb (HS.load_fine hl)
  have hrn0 : (s0.acts before).rootName = rn := by rw [HS.Covers.rootName hb (HS.load_fine hl), hrn]
  obtain ⟨pl, c, ht, hown, hd⟩ := HS.get_done hf0 (by rw [hrn0]; exact hp) h1
  have hpl := place_of_target hf0.inv ht
  have hcl := ht.clean
  rw [hrn0] at hcl
  have hrn1 : s1.rootName = rn := by rw [hd.rootName, hrn0]
  have hf1 : s1.Fine := ⟨hd.inv, by
    rw [hd.view]
    refine hf0.own.put ?_
    rw [kGet_file]
    exact hf0.own.ownAt_file ht.clean hown⟩
  have hno' : s1.Spares pl after := by
    rcases hpl with rfl | ⟨rfl, -⟩
    · exact hno
    · exact hno.cfg
  have hh := HS.Covers.holds ha hf1 (by rw [hrn1]; exact hcl) hd.holds hno'
  have hf2 := HS.Covers.fine ha hf1
  have hrn2 : (s1.acts after).rootName = rn := by rw [HS.Covers.rootName ha hf1, hrn1]
  obtain ⟨c2, hc2⟩ := hh.conf
  obtain ⟨ht2, hown2⟩ := found_of_place hf2 (by rw [hrn2]; exact hp) hpl hh.place hc2
  have hrun := HM.target_run hf2.inv ht2
  rw [hown2] at hrun
  obtain ⟨r2, s3, hg, hd3⟩ := hrun
  have hsame := hd3.same (fun p l e => hh.not_file p l e)
  rw [hh.place] at hsame
  cases hsame
  rw [HM.update_run hg hd3.conf] at h2
  have hd4 := hd3.write ht2.clean (kUpdate d persist kw c2).2
  have e2 := congrArg Prod.snd h2
  have e1 := congrArg Prod.fst h2
  simp only at e1 e2
  rw [e2] at hd4
  have hk : r = r' ∧ (kUpdate d persist kw c2).2 = if b then c2.update d persist kw else c2 := by
    unfold kUpdate at e1 ⊢
    cases hdw : CMM.determineWouldUpdate c2 d kw with
    | error e => rw [hdw] at e1; cases e1
    | ok b' =>
      rw [hdw] at e1
      cases b' with
      | false => simp only [Except.map, Except.ok.injEq, Prod.mk.injEq] at e1; obtain ⟨rfl, rfl⟩ := e1; exact ⟨rfl, rfl⟩
      | true =>
        simp only at e1 ⊢
        split at e1
        · cases e1
        · rename_i hcl
          simp only [Except.map, Except.ok.injEq, Prod.mk.injEq] at e1
          obtain ⟨rfl, rfl⟩ := e1
          rw [if_neg hcl]
          exact ⟨rfl, rfl⟩
  refine ⟨hk.1.symm, ⟨c2, hc2, ?_⟩, ?_⟩
  · rw [← hk.2]; exact hd4.conf
  · intro k c' hkr hkc
    exact hd4.confs k c' hkc hkr

/-- A reset of an item that says it changed something gives the item a new object, with what the file assigns now. -/
theorem C114_reset_new [BEq V] {fs : Files V} {rn : String} {s0 : HS V} (hl : HS.load fs rn = .ok s0)
    {before : List (HAct V)} (hb : s0.Covers before) {p : List String} (hp : CleanPath rn p)
    (hit : (s0.acts before).Target (some p) (.item p)) {r : Nat} {s1 : HS V}
    (h1 : HM.reset (some p) false (s0.acts before) = (.ok (r, true), s1)) :
    (s0.acts before).heap[r]? = none ∧ (∃ s2, HM.getProjectOrLocal (some p) s1 = (.ok (some r), s2)) ∧
      ∃ v, (s0.acts before).fs.load (.item p) = .ok v ∧ s1.heap[r]? = some (.conf v) := by
  have hrn : s0.rootName = rn := (HS.load_ok hl).2.1
  have hf0 := HS.Covers.fine hb (HS.load_fine hl)
  have hrn0 : (s0.acts before).rootName = rn := by rw [HS.Covers.rootName hb (HS.load_fine hl), hrn]
  generalize s0.acts before = s at *
  have hp0 : CleanPath s.rootName p := by rw [hrn0]; exact hp
  have hrun := HM.reset_run hf0.inv hp0 (by cases hit with | item _ h => exact h)
  have key : ∀ v, s.fs.load (.item p) = .ok v → r = s.heap.length → s.Replaced s1 (.item p) s.heap.length v →
      s.heap[r]? = none ∧ (∃ s2, HM.getProjectOrLocal (some p) s1 = (.ok (some r), s2)) ∧
      ∃ v, s.fs.load (.item p) = .ok v ∧ s1.heap[r]? = some (.conf v) := by
    rintro v hv rfl hd
    have hf1 : s1.Fine := ⟨hd.inv, by rw [hd.view]; exact hf0.own.put (Files.load_file hv)⟩
    obtain ⟨ht2, hown2⟩ := found_of_place hf1 (by rw [hd.rootName]; exact hp0) (.inl rfl) hd.place hd.conf
    have hg := HM.target_run hf1.inv ht2
    rw [hown2] at hg
    obtain ⟨r', s2, hg, hd2⟩ := hg
    have hsame := hd2.same (fun p l e => HS.Holds.not_file ⟨hd.place, _, hd.conf⟩ p l e)
    rw [hd.place] at hsame
    cases hsame
    exact ⟨by simp, ⟨s2, hg⟩, v, hv, hd.conf⟩
  cases hload : s.fs.load (.item p) with
  | error e => rw [hload] at hrun; simp only at hrun; rw [hrun] at h1; cases h1
  | ok v =>
    rw [← hload]
    rw [hload] at hrun
    cases ho : s.view.own p with
    | error e =>
      rw [ho] at hrun
      simp only at hrun
      by_cases he : e = .keyError
      · rw [if_pos he] at hrun
        obtain ⟨s', h3, h4⟩ := hrun
        rw [h1] at h3
        cases h3
        exact key v hload rfl h4
      · rw [if_neg he] at hrun
        obtain ⟨s', h3, h4⟩ := hrun
        rw [h1] at h3
        cases h3
    | ok c =>
      rw [ho] at hrun
      simp only at hrun
      cases hdw : CMM.determineWouldUpdate c none v.values with
      | error e =>
        rw [hdw] at hrun
        obtain ⟨r', s', h3, h4⟩ := hrun
        rw [h1] at h3
        cases h3
      | ok b =>
        rw [hdw] at hrun
        cases b with
        | true =>
          obtain ⟨s', h3, h4⟩ := hrun
          rw [h1] at h3
          cases h3
          exact key v hload rfl h4
        | false =>
          obtain ⟨r', s', h3, h4, -⟩ := hrun
          rw [h1] at h3
          cases h3

/-- A reset of a section that has no config of its own reads the folder of the section again: every config in it is a new object
then, with the contents that the folder says, and all others stay what and where they are. -/
theorem C114_reset_section [BEq V] {fs : Files V} {rn : String} {s0 : HS V} (hl : HS.load fs rn = .ok s0)
    {before : List (HAct V)} (hb : s0.Covers before) {p : List String} (hp : CleanPath rn p) (hne : p ≠ [])
    (hs : (s0.acts before).hslot p = .sect none) {r : Nat} {b : Bool} {s1 : HS V}
    (h1 : HM.reset (some p) false (s0.acts before) = (.ok (r, b), s1)) :
    b = true ∧ s1.find p = some (.ref r) ∧
    (∀ a : Place, a.Clean rn → a.Under p → ∀ k, s1.place a = some k → (s0.acts before).heap[k]? = none) ∧
    (∀ a : Place, a.Clean rn → ¬ a.Under p → s1.place a = (s0.acts before).place a) ∧
    (∀ (k : Nat) (c : Conf V), (s0.acts before).heap[k]? = some (.conf c) → s1.heap[k]? = some (.conf c)) ∧
    ∃ n, (match (s0.acts before).fs.tree.at? p with
      | some t => fromFiles (s0.acts before).fs p t
      | none => .ok (.sect none [] [])) = .ok n ∧
      ∀ q, CleanPath rn (p ++ q) → s1.hslot (p ++ q) = Node.slotOf (n.walk sectionReserved (p.getLast?.getD rn) q) := by
  have hrn : s0.rootName = rn := (HS.load_ok hl).2.1
  have hf0 := HS.Covers.fine hb (HS.load_fine hl)
  have hrn0 : (s0.acts before).rootName = rn := by rw [HS.Covers.rootName hb (HS.load_fine hl), hrn]
  generalize s0.acts before = s at *
  subst hrn0
  have hrun := HM.reset_sect_none hf0.inv hp hne hs false
  cases hn : sectNode s.fs p with
  | error e => rw [hn] at hrun; simp only at hrun; rw [hrun] at h1; cases h1
  | ok n =>
    rw [hn] at hrun
    obtain ⟨r', s', h2, h3, ⟨hff, -⟩ | ⟨h4, h5⟩⟩ := hrun
    · cases hff
    rw [h1] at h2
    cases h2
    refine ⟨rfl, ?_, ?_, h4.others, h4.confs, n, hn, ?_⟩
    · simp only [HS.place] at h5
      cases hfd : s1.find p with
      | none => rw [hfd] at h5; cases h5
      | some v =>
        rw [hfd] at h5
        rcases HS.find_cases hfd with rfl | ⟨k, rfl⟩
        · cases h5
        · cases h5; rfl
    · intro a ha hu k hk
      have := h4.fresh a ha hu k hk
      simp only [List.getElem?_eq_none_iff]
      exact this
    · intro q hq
      have hq1 : CleanPath s1.rootName (p ++ q) := by rw [h4.rootName]; exact hq
      rw [← HS.view_slot hq1, h4.view]
      show (if CleanPath s.rootName (p ++ q) then (s.view.graft p n).slot (p ++ q) else .absent) = _
      rw [if_pos hq]
      show (if p <+: p ++ q then _ else _) = _
      rw [if_pos (List.prefix_append p q), List.drop_left]
      rfl

/-- A reset with creation, of a path on which something is missing: the sections on the way are created, and the config that the file
of the item has is a new object at that path; nothing that was there before changes. -/
theorem C114_create [BEq V] {fs : Files V} {rn : String} {s0 : HS V} (hl : HS.load fs rn = .ok s0)
    {before : List (HAct V)} (hb : s0.Covers before) {p : List String} (hp : CleanPath rn p)
    (hm : (s0.acts before).walk .mgr p = .error .keyError) {c : Conf V} (hc : (s0.acts before).fs.load (.item p) = .ok c) :
    ∃ r s1 s2, HM.reset (some p) true (s0.acts before) = (.ok (r, true), s1) ∧ (s0.acts before).heap[r]? = none ∧
      HM.getProjectOrLocal (some p) s1 = (.ok (some r), s2) ∧ s2.heap[r]? = some (.conf c) ∧
      (∀ a : Place, a.Clean rn → ∀ k, (s0.acts before).place a = some k → s1.place a = some k) ∧
      (∀ a : Place, a.Clean rn → ∀ k, (s0.acts before).place a = none → s1.place a = some k → (s0.acts before).heap[k]? = none) ∧
      (∀ (k : Nat) (c : Conf V), (s0.acts before).heap[k]? = some (.conf c) → s1.heap[k]? = some (.conf c)) ∧
      ∀ q x, q ++ [x] <+: p → q ++ [x] ≠ p → (s0.acts before).find (q ++ [x]) = none → s1.hslot (q ++ [x]) = .sect none := by
  have hrn : s0.rootName = rn := (HS.load_ok hl).2.1
  have hf0 := HS.Covers.fine hb (HS.load_fine hl)
  have hrn0 : (s0.acts before).rootName = rn := by rw [HS.Covers.rootName hb (HS.load_fine hl), hrn]
  generalize s0.acts before = s at *
  subst hrn0
  have hrun := HM.reset_missing_create hf0.inv hp hm
  rw [hc] at hrun
  obtain ⟨q, x, rest, s1, rfl, h0, h2, h3, h4, h5⟩ := hrun
  have hf1 : s1.Fine := ⟨h4.inv, by
    rw [h4.view]; exact hf0.own.graft (by simp) (nest_ok rest (.conf (Files.load_file hc)))⟩
  have hp1 : CleanPath s1.rootName (q ++ [x] ++ rest) := by rw [h4.rootName]; exact hp
  have hslots : ∀ t, CleanPath s.rootName (q ++ [x] ++ t) → s1.hslot (q ++ [x] ++ t) =
      Node.slotOf ((CMM.nest (.conf c) rest).walk sectionReserved x t) := by
    intro t ht
    rw [← HS.view_slot (s := s1) (by rw [h4.rootName]; exact ht), h4.view]
    show (if CleanPath s.rootName _ then (s.view.graft _ _).slot _ else .absent) = _
    rw [if_pos ht]
    show (if q ++ [x] <+: _ then _ else _) = _
    rw [if_pos (List.prefix_append _ _), List.drop_left]
    simp
  have hnest : ∀ t, t <+: rest → NotReserved sectionReserved t → PlainPath x t →
      Node.slotOf ((CMM.nest (.conf c) rest).walk sectionReserved x t) = if t.length = rest.length then .conf c else .sect none := by
    intro t hpre hnr hpl
    have hch := hasChain_append 0 rest [HObj.conf c] x
    have := (HasChain.addr (s := { s with heap := [HObj.conf c] ++ chain 0 1 x rest }) (ρ := 0) (c := c) rfl t hch hnr hpl).2.2
    rw [this, if_pos hpre]
  have hpc := fun t (ht : CleanPath s.rootName (q ++ [x] ++ t)) => cleanPath_append (p := q ++ [x]) (rest := t) (by simp) ht
  have hlast : (q ++ [x]).getLast?.getD s.rootName = x := by simp
  have hit : s1.hslot (q ++ [x] ++ rest) = .conf c := by
    obtain ⟨e1, e2⟩ := hpc rest hp
    rw [hlast] at e1
    rw [hslots rest hp, hnest rest (List.prefix_refl _) e2 e1, if_pos rfl]
  obtain ⟨k, hk, ⟨c', hc', e⟩ | ⟨l, -, e⟩⟩ := HS.find_of_item hf1.inv (p := q ++ [x] ++ rest) (by rw [hit]; rfl)
  · rw [hit] at e
    cases e
    simp only [HS.place, hk, Option.some.injEq] at h5
    subst h5
    have hpl : s1.place (.item (q ++ [x] ++ rest)) = some s.heap.length := by simp only [HS.place, hk]
    obtain ⟨ht, hown⟩ := found_of_place hf1 hp1 (.inl rfl) hpl hc'
    have hg := HM.target_run hf1.inv ht
    rw [hown] at hg
    obtain ⟨r', s2, hg, hd⟩ := hg
    have hsame := hd.same (fun p l e => HS.Holds.not_file ⟨hpl, _, hc'⟩ p l e)
    rw [hpl] at hsame
    cases hsame
    have hnone : ∀ t, s.find (q ++ [x] ++ t) = none := fun t => by
      cases hf : s.find (q ++ [x] ++ t) with
      | none => rfl
      | some v =>
        obtain ⟨v', hv'⟩ := HS.find_prefix t (q ++ [x]) hf
        rw [h2] at hv'; cases hv'
    have hunder : ∀ a : Place, a.Under (q ++ [x]) → s.place a = none := by
      intro a hu
      obtain ⟨b, t, rfl⟩ := Place.under_iff.1 hu
      cases b
      · simp only [HS.place, hnone, Bool.false_eq_true, if_false]
      · simp only [HS.place, hnone, if_true]
    refine ⟨_, s1, s2, h3, by simp, hg, hd.conf, ?_, ?_, h4.confs, ?_⟩
    · intro a ha k hk
      rw [h4.others a ha ?_]
      · exact hk
      · intro hu
        rw [hunder a hu] at hk; cases hk
    · intro a ha k hk hk'
      by_cases hu : a.Under (q ++ [x])
      · have := h4.fresh a ha hu k hk'
        simp only [List.getElem?_eq_none_iff]
        exact this
      · rw [h4.others a ha hu, hk] at hk'; cases hk'
    · intro q' x' hpre hne hnf
      by_cases hle : (q ++ [x]).length ≤ (q' ++ [x']).length
      · obtain ⟨t, ht⟩ := List.prefix_of_prefix_length_le (List.prefix_append (q ++ [x]) rest) hpre hle
        rw [← ht] at hpre hne ⊢
        have htr : t <+: rest := (List.prefix_append_right_inj _).1 hpre
        have hcl : CleanPath s.rootName (q ++ [x] ++ t) := by
          obtain ⟨u, hu⟩ := hpre
          rw [← hu] at hp
          exact CleanPath.prefix u _ hp
        obtain ⟨e1, e2⟩ := hpc t hcl
        rw [hlast] at e1
        rw [hslots t hcl, hnest t htr e2 e1, if_neg]
        intro hl
        exact hne (by rw [htr.eq_of_length hl])
      · exfalso
        have hpq : q' ++ [x'] <+: q := by
          have h6 : q' ++ [x'] <+: q ++ ([x] ++ rest) := by rw [← List.append_assoc]; exact hpre
          refine List.prefix_of_prefix_length_le h6 (List.prefix_append q _) ?_
          simp only [List.length_append, List.length_singleton] at hle ⊢
          omega
        obtain ⟨u, hu⟩ := hpq
        cases hfq : s.find q with
        | none => exact h0 hfq
        | some v =>
          rw [← hu] at hfq
          obtain ⟨v', hv'⟩ := HS.find_prefix u (q' ++ [x']) hfq
          rw [hnf] at hv'; cases hv'
  · rw [hit] at e; cases e

/-- A reset with creation, of an item that is there: whatever it answers, the item has the object it had (or the one made from its file
just now), with the same contents. -/
theorem C114_create_keeps [BEq V] {fs : Files V} {rn : String} {s0 : HS V} (hl : HS.load fs rn = .ok s0)
    {before : List (HAct V)} (hb : s0.Covers before) {p : List String} (hp : CleanPath rn p)
    (hit : (s0.acts before).Target (some p) (.item p)) {v : Conf V} (hv : (s0.acts before).fs.load (.item p) = .ok v) :
    ∃ c s1, (s0.acts before).view.own p = .ok c ∧ HM.reset (some p) true (s0.acts before) =
        ((CMM.determineWouldUpdate c none v.values).map (fun b => ((s0.acts before).heap.length, b)), s1) ∧
      (∃ r s2, HM.getProjectOrLocal (some p) s1 = (.ok (some r), s2) ∧ s2.heap[r]? = some (.conf c) ∧
        r ≠ (s0.acts before).heap.length ∧
        ∀ r0 c0, (s0.acts before).place (.item p) = some r0 → (s0.acts before).heap[r0]? = some (.conf c0) → r = r0) := by
  have hrn : s0.rootName = rn := (HS.load_ok hl).2.1
  have hf0 := HS.Covers.fine hb (HS.load_fine hl)
  have hrn0 : (s0.acts before).rootName = rn := by rw [HS.Covers.rootName hb (HS.load_fine hl), hrn]
  generalize s0.acts before = s at *
  subst hrn0
  have hit : (s.hslot p).isItem = true := by cases hit with | item _ h => exact h
  obtain ⟨c, hown⟩ := hf0.own.own_load (p := p) hp.1 (by rw [HS.view_slot hp]; exact hit) hv
  have hcf : c.file = Place.file (.item p) :=
    hf0.own.ownAt_file (pl := .item p) hp (by simp only [View.ownAt, hown])
  have hrun := HM.reset_item_create hf0.inv hp hit hv hown
  have hall : ∃ r s1, HM.reset (some p) true s = ((CMM.determineWouldUpdate c none v.values).map (fun b => (s.heap.length, b)), s1) ∧
      s.Done s1 (.item p) r c ∧ r ≠ s.heap.length := by
    cases hdw : CMM.determineWouldUpdate c none v.values with
    | error e =>
      rw [hdw] at hrun
      exact hrun
    | ok b =>
      rw [hdw] at hrun
      obtain ⟨r, s', h1, h2, h3, -⟩ := hrun
      exact ⟨r, s', h1, h2, h3⟩
  obtain ⟨r, s1, h1, hd, hr⟩ := hall
  have hf1 : s1.Fine := ⟨hd.inv, by rw [hd.view]; exact hf0.own.put hcf⟩
  have hp1 : CleanPath s1.rootName p := by rw [hd.rootName]; exact hp
  obtain ⟨ht, hown1⟩ := found_of_place hf1 hp1 (.inl rfl) hd.place hd.conf
  have hg := HM.target_run hf1.inv ht
  rw [hown1] at hg
  obtain ⟨r', s2, hg, hd2⟩ := hg
  have hsame := hd2.same (fun p l e => HS.Holds.not_file ⟨hd.place, _, hd.conf⟩ p l e)
  rw [hd.place] at hsame
  cases hsame
  refine ⟨c, s1, hown, h1, r, s2, hg, hd2.conf, hr, ?_⟩
  intro r0 c0 hr0 hc0
  have := hd.same (fun p l e => HS.Holds.not_file ⟨hr0, _, hc0⟩ p l e)
  rw [hr0] at this
  cases this
  rfl

/-- The answers of a list of calls, by the manager with objects and by the manager as a tree. -/
def objectAnswers [BEq V] (s : HS V) : List (CMOp V) → List (Except PyErr (CallAnswer V))
  | [] => []
  | o :: l => s.answer o :: objectAnswers (s.step o) l

def treeAnswers [BEq V] (t : CM V) : List (CMOp V) → List (Except PyErr (CallAnswer V))
  | [] => []
  | o :: l => t.answer o :: treeAnswers (t.step o) l

def AllAsked [BEq V] (s : HS V) : List (CMOp V) → Prop
  | [] => True
  | o :: l => s.Asked o ∧ AllAsked (s.step o) l

/-- The manager with objects and the manager as a tree (`Verif/Model/Store.lean`, which the theorems about histories of
calls are about) load the same projects and give the same answers, call by call. -/
theorem C114_refines [BEq V] {fs : Files V} {rn : String} {s : HS V} (hl : HS.load fs rn = .ok s) :
    ∃ t, CM.load fs rn = .ok t ∧ ∀ ops, AllAsked s ops → objectAnswers s ops = treeAnswers t ops := by
  obtain ⟨hi, hr, t, ht, hv⟩ := HS.load_ok hl
  refine ⟨t, ht, ?_⟩
  have hlink : Matched s t := ⟨⟨HS.load_fine hl, hv⟩, CM.load_solid ht, CM.load_own ht⟩
  clear ht hv hi hl hr
  intro ops
  induction ops generalizing s t with
  | nil => intro _; rfl
  | cons o l ih =>
    rintro ⟨h1, h2⟩
    obtain ⟨h3, h4⟩ := hlink.step h1
    show _ :: _ = _ :: _
    rw [h3, ih _ h4 h2]

/-- Where a path leads to nothing, because the last section that it leads to has nothing of the next name, asking for it
is a `KeyError`; below an item it is an `AttributeError` as long as the item is not loaded, and otherwise what asking the
config for the next name raises, or, when the config has a value of that name, a `ValueError` if the path ends there and
an `AttributeError` if it goes on.  Nothing changes. -/
theorem C114_nothing_there {s : HS V} (hf : s.Fine) {q rest : List String} {x : String}
    (hp : CleanPath s.rootName (q ++ x :: rest)) (hx : s.hslot (q ++ [x]) = .absent) :
    (∀ cfg, s.hslot q = .sect cfg → HM.get (q ++ x :: rest) s = (.error .keyError, s)) ∧
    (∀ l, s.hslot q = .file l → HM.get (q ++ x :: rest) s = (.error .attributeError, s)) ∧
    (∀ c e, s.hslot q = .conf c → c.getattr x = .error e → HM.get (q ++ x :: rest) s = (.error e, s)) ∧
    (∀ c v, s.hslot q = .conf c → c.getattr x = .ok v → rest = [] → HM.get (q ++ x :: rest) s = (.error .valueError, s)) ∧
    (∀ c v, s.hslot q = .conf c → c.getattr x = .ok v → rest ≠ [] → HM.get (q ++ x :: rest) s = (.error .attributeError, s)) := by
  have hp1 : CleanPath s.rootName (q ++ [x]) := CleanPath.prefix rest _ (by simpa using hp)
  have hp0 : CleanPath s.rootName q := CleanPath.prefix [x] _ hp1
  have key : s.hslot q ≠ .absent → HM.get (q ++ x :: rest) s = (.error (s.view.missing q (x :: rest)), s) := by
    intro hq
    have hn := HS.nothing_below hf.inv hp hx
    have h1 := HM.getRef_missing hf.inv hp hn
    rw [View.missing_append (x :: rest) q [] (fun k hk => by
      rw [List.nil_append, HS.view_slot (CleanPath.take hp0 k)]
      exact HS.prefix_there hf.inv hp0 hq k)] at h1
    unfold HM.get
    rw [M.bind_error h1]
    rfl
  have hv1 : s.view.slot (q ++ [x]) = .absent := by rw [HS.view_slot hp1, hx]
  have hv0 : s.view.slot q = s.hslot q := HS.view_slot hp0
  refine ⟨?_, ?_, ?_, ?_, ?_⟩
  · intro cfg h
    rw [key (by rw [h]; simp)]
    simp only [View.missing, hv1, hv0, h]
  · intro l h
    rw [key (by rw [h]; simp)]
    simp only [View.missing, hv1, hv0, h]
  · intro c e h hg
    rw [key (by rw [h]; simp)]
    simp only [View.missing, hv1, hv0, h, hg]
  · intro c v h hg hr
    rw [key (by rw [h]; simp)]
    simp only [View.missing, hv1, hv0, h, hg, if_pos hr]
  · intro c v h hg hr
    rw [key (by rw [h]; simp)]
    simp only [View.missing, hv1, hv0, h, hg, if_neg hr]

/-- The path `section` is another name of the project's section: asking for it gives the config object of the project. -/
theorem project_section_object {s : HS V} (hf : s.Fine) :
    HM.getProjectOrLocal (some ["section"]) s = (.ok (s.place (.cfg [])), s) := by
  obtain ⟨cfg, attrs, map, hs⟩ := hf.inv.root
  show HM.getRef ["section"] s = _
  unfold HM.getRef
  rw [M.bind_ok (M.get_run s), M.bind_run, M.liftE_run]
  simp only [HS.walk, HS.attr, if_true]
  rw [M.bind_run, M.liftE_run]
  simp only [HS.obj, hs]
  simp only [HS.place, HS.find_nil, HS.cfgOf, hs]
  rfl

/-- So refreshing the path `section`, which is what is recorded for the file of the project's own section (C72), refreshes
the config of the project: its object gets what `Conf.refresh` gives for the file as it is now, and no other config changes. -/
theorem C72_project_section [BEq V] {s : HS V} (hf : s.Fine) {r : Nat} {c new c' : Conf V} {updates : Dict String V}
    (hr : s.place (.cfg []) = some r) (hc : s.heap[r]? = some (.conf c)) (hn : s.fs.load (.sect []) = .ok new)
    (hch : (c.changeFromRefresh new.values).items.isEmpty = false) (hu : c.refresh new.values = .ok (c', updates)) :
    ∃ s', HM.refresh ["section"] s = (.ok (r, true, updates), s') ∧ s'.heap[r]? = some (.conf c') ∧
      ∀ k, k ≠ r → s'.heap[k]? = s.heap[k]? := by
  have hg := project_section_object hf
  rw [hr] at hg
  have hown : s.view.ownAt (.cfg []) = .ok (some c) := by
    have hp : CleanPath s.rootName [] := ⟨by simp [PlainPath], by simp [NotReserved]⟩
    obtain ⟨cfg, attrs, map, hs⟩ := hf.inv.root
    have : s.hslot [] = .sect (some c) := by
      simp only [HS.place, HS.find_nil, HS.cfgOf, hs] at hr
      simp only [HS.hslot, HS.find_nil, HS.slotAt, hs, hr, Option.bind_some, HS.confAt, hc]
    simp only [View.ownAt, View.sectCfg, HS.view_slot hp, this]
  have hfile : c.file = some (.sect []) :=
    hf.own.ownAt_file (pl := .cfg []) (show CleanPath s.rootName [] from ⟨by simp [PlainPath], by simp [NotReserved]⟩) hown
  rw [HM.refresh_run hg hc]
  have hk : kRefresh s.fs c = (.ok (true, updates), c') := by
    unfold kRefresh
    rw [hfile]
    simp only [hn]
    rw [if_neg (by rw [hch]; simp), hu]
  rw [hk]
  refine ⟨_, rfl, ?_, ?_⟩
  · rw [HS.write_get _ _ _ (List.getElem?_eq_some_iff.1 hc).1, if_pos rfl]
  · intro k hkr
    rw [HS.write_get _ _ _ (List.getElem?_eq_some_iff.1 hc).1, if_neg hkr]

/-- Attributes of a config manager that hold neither configs nor sections, as `manager.py` defines them. -/
def managerNames : List String :=
  ["basepath", "pipeline_manager_name", "load", "update", "refresh", "refresh_dependent_configs", "reset", "pop", "get", "set",
   "pipeline_manager", "track_post_update"]

/-- Asking for an attribute of the manager as if it were an item raises a `ValueError`, asking for something in one an
`AttributeError`; nothing changes. -/
theorem C114_other_names {s : HS V} {x : String} (hx : x ∈ managerNames) (y : String) (p : List String) :
    HM.get [x] s = (.error .valueError, s) ∧ HM.get (x :: y :: p) s = (.error .attributeError, s) := by
  have hm : x ∈ managerOther ∧ x ≠ "section" ∧ x ≠ "local_config" := by
    simp only [managerNames, List.mem_cons, List.not_mem_nil, or_false] at hx
    rcases hx with rfl | rfl | rfl | rfl | rfl | rfl | rfl | rfl | rfl | rfl | rfl | rfl <;> decide +kernel
  have ha : s.attr .mgr x = .ok .other := by simp [HS.attr, hm]
  constructor
  · have hw : s.walk .mgr [x] = .ok .other := by simp [HS.walk, ha]
    have hg : HM.getRef [x] s = (.error .valueError, s) := by
      unfold HM.getRef
      rw [M.bind_ok (M.get_run s), M.bind_run, M.liftE_run, hw]
      rfl
    unfold HM.get
    rw [M.bind_error hg]
  · have hw : s.walk .mgr (x :: y :: p) = .error .attributeError := by
      rw [HS.walk, ha]
      rfl
    have hg : HM.getRef (x :: y :: p) s = (.error .attributeError, s) := by
      unfold HM.getRef
      rw [M.bind_ok (M.get_run s), M.bind_run, M.liftE_run, hw]
    unfold HM.get
    rw [M.bind_error hg]

/-- The project's own config is at `config`; a project that has none has `None` there, which is no config and has nothing
in it. -/
theorem C114_no_config {fs : Files V} {rn : String} {s : HS V} (hl : HS.load fs rn = .ok s) (hn : s.place (.cfg []) = none)
    (y : String) (p : List String) :
    HM.get ["config"] s = (.error .valueError, s) ∧ HM.get ("config" :: y :: p) s = (.error .attributeError, s) := by
  obtain ⟨cfg, attrs, map, hs⟩ := (HS.load_fine hl).inv.root
  have hattrs : s.attrs = [] := by
    unfold HS.load at hl
    split at hl
    · cases hl; rfl
    · cases hl
  have hcfg : cfg = none := by simpa only [HS.place, HS.find_nil, HS.cfgOf, hs] using hn
  subst hcfg
  have ha : s.attr .mgr "config" = .ok .none := by
    have h1 : "config" ∉ managerOther := by decide +kernel
    simp [HS.attr, h1, hattrs, AList.get?, HS.obj, hs, HS.objAttr, HS.sectAttr]
  constructor
  · have hw : s.walk .mgr ["config"] = .ok .none := by simp [HS.walk, ha]
    have hg : HM.getRef ["config"] s = (.error .valueError, s) := by
      unfold HM.getRef
      rw [M.bind_ok (M.get_run s), M.bind_run, M.liftE_run, hw]
      rfl
    unfold HM.get
    rw [M.bind_error hg]
  · have hw : s.walk .mgr ("config" :: y :: p) = .error .attributeError := by
      rw [HS.walk, ha]
      rfl
    have hg : HM.getRef ("config" :: y :: p) s = (.error .attributeError, s) := by
      unfold HM.getRef
      rw [M.bind_ok (M.get_run s), M.bind_run, M.liftE_run, hw]
    unfold HM.get
    rw [M.bind_error hg]

/-! ### Examples and counterexamples -/

/-- A project with the item `a`, the section `sub` with a config, and the item `sub.b` in it. -/
def objectsFiles : Files Nat where
  tree := .mk false ["a"] [("sub", .mk true ["b"] [])]
  read := fun _ => .ok (Dict.empty.set "x" 1)

/-- What `get` gives in a state: the address of the object, and the value of `x` in it. -/
def askObject (s : HS Nat) (p : List String) : Option (Nat × Option Nat) :=
  match HM.get p s with
  | (.ok (some r), s') => match s'.confAt r with
    | some c => some (r, c.values.get? "x")
    | none => none
  | _ => none

def loadedObjects : HS Nat := match HS.load objectsFiles "proj" with
  | .ok s => s
  | .error _ => ⟨objectsFiles, "", [], 0, 0, []⟩

/-- The premises of the theorems hold for this project. -/
example : (HS.load objectsFiles "proj").isOk = true := by decide +kernel

example : CleanPath "proj" ["a"] ∧ CleanPath "proj" ["sub", "b"] ∧ CleanPath "proj" ["sub"] := by decide +kernel

example : askObject (loadedObjects.acts [.op (.get ["a"]), .op (.update none (some ["a"]) true (Dict.empty.set "x" 5))]) ["a"] =
    (askObject (loadedObjects.act (.op (.get ["a"]))) ["a"]).map (fun e => (e.1, some 5)) := by decide +kernel

example : (askObject loadedObjects ["sub", "b"]).isSome = true ∧ (askObject loadedObjects ["sub"]).isSome = true := by
  decide +kernel

example : loadedObjects.Covers [.op (.get ["a"]), .op (.update none (some ["sub"]) true (Dict.empty.set "x" 5)), .op (.reset none false),
    .op (.reset (some ["sub", "b"]) false), .touch 6 (fun c => c.update none true Dict.empty), .op (.pop "x" (some ["nothing"]))] := by
  have h : ∀ p q, p ∈ [["a"], ["sub"], ["sub", "b"], ["nothing"]] → q = "proj" → CleanPath q p := by
    rintro p q hp rfl
    simp only [List.mem_cons, List.not_mem_nil, or_false] at hp
    rcases hp with rfl | rfl | rfl | rfl <;> decide +kernel
  refine ⟨h _ _ (by simp) ?_, h _ _ (by simp) ?_, trivial, h _ _ (by simp) ?_, ?_, h _ _ (by simp) ?_, trivial⟩
  · decide +kernel
  · decide +kernel
  · decide +kernel
  · intro c; rfl
  · decide +kernel

/-- Calls that do not reset an item, one of them a reset with creation. -/
example : loadedObjects.Spares (.item ["a"]) [.op (.get ["a"]), .op (.reset none false), .op (.reset (some ["sub", "b"]) true)] := by
  refine ⟨fun h => h, fun h => ?_, fun h => ?_, trivial⟩
  · cases h
  · rcases h with ⟨h, -⟩ | ⟨-, h⟩
    · cases h
    · revert h; decide +kernel

example : AllAsked loadedObjects [.get ["a"], .update none (some ["sub"]) true (Dict.empty.set "x" 5), .pop "x" none,
    .refresh ["nothing", "y"], .get ["a", "x"], .reset (some ["sub", "new", "item"]) true, .reset (some ["sub", "new"]) false] := by
  refine ⟨⟨?_, ?_⟩, ⟨?_, ?_⟩, ⟨trivial, ?_⟩, ⟨?_, ?_⟩, ⟨?_, ?_⟩, ⟨?_, ?_, ?_⟩, ⟨?_, ?_, ?_⟩, trivial⟩ <;>
    first | decide +kernel | (show CleanPath _ ["sub"]; decide +kernel) |
      (intro _ h; have h' : (Slot.absent : Slot Nat) = .sect none := h; cases h') | simp

example : loadedObjects.place (.cfg []) = none := by decide +kernel

/-- A name that the section does not have, something in an item that is not loaded, and a value of a loaded config. -/
example : (HM.get ["sub", "c"] loadedObjects).1 = .error .keyError ∧ (HM.get ["a", "x"] loadedObjects).1 = .error .attributeError ∧
    (HM.get ["a", "x"] (loadedObjects.act (.op (.get ["a"])))).1 = .error .valueError := by
  refine ⟨by rfl, by rfl, by rfl⟩

/-- Not for all paths: `section.a` is another path of the item `a`, but once `a` was used under the one path, the other
gives another object, and an update under the one is not seen under the other. -/
theorem C114_two_paths_violated : ∃ s : HS Nat, HS.load objectsFiles "proj" = .ok s ∧
    ∃ r r' : Nat, askObject (s.acts [.op (.get ["a"]), .op (.update none (some ["a"]) true (Dict.empty.set "x" 5))]) ["a"] = some (r, some 5) ∧
      askObject (s.acts [.op (.get ["a"]), .op (.update none (some ["a"]) true (Dict.empty.set "x" 5))]) ["section", "a"] =
        some (r', some 1) ∧ r ≠ r' := by
  refine ⟨loadedObjects, by rfl, 6, 7, ?_, ?_, ?_⟩ <;> decide +kernel

/-- Nor do different paths always lead to different objects: the config of a section is at `sub`, `sub.config` and `sub.sub`. -/
theorem C114_section_paths_violated : ∃ s : HS Nat, HS.load objectsFiles "proj" = .ok s ∧
    ∃ r : Nat, askObject s ["sub"] = some (r, some 1) ∧ askObject s ["sub", "config"] = some (r, some 1) ∧
      askObject s ["sub", "sub"] = some (r, some 1) := by
  refine ⟨loadedObjects, by rfl, 2, ?_, ?_, ?_⟩ <;> decide +kernel

/-- `reset('section')` in a project without a config of its own replaces the section of the project by an empty one,
after which no item has a config. -/
theorem C114_reset_project_violated : ∃ s : HS Nat, HS.load objectsFiles "proj" = .ok s ∧
    (askObject s ["a"]).isSome = true ∧ askObject (s.act (.op (.reset (some ["section"]) false))) ["a"] = none ∧
    askObject (s.act (.op (.reset (some ["section"]) false))) ["sub", "b"] = none := by
  refine ⟨loadedObjects, rfl, ?_, ?_, ?_⟩ <;> decide +kernel

/-- A reset with creation that says that it updated the config, but does not: `a` keeps the object with the update, and the
object with the values of the file is nowhere. -/
theorem C114_create_violated : ∃ s : HS Nat, HS.load objectsFiles "proj" = .ok s ∧
    ∃ r r' : Nat, r ≠ r' ∧
      askObject (s.act (.op (.update none (some ["a"]) true (Dict.empty.set "x" 5)))) ["a"] = some (r, some 5) ∧
      (HM.reset (some ["a"]) true (s.act (.op (.update none (some ["a"]) true (Dict.empty.set "x" 5))))).1 = .ok (r', true) ∧
      askObject (s.acts [.op (.update none (some ["a"]) true (Dict.empty.set "x" 5)), .op (.reset (some ["a"]) true)]) ["a"] =
        some (r, some 5) := by
  refine ⟨loadedObjects, rfl, 6, 7, ?_, ?_, ?_, ?_⟩
  · decide
  · decide +kernel
  · rfl
  · decide +kernel

/-- The premises of `C114_create_keeps`. -/
example : loadedObjects.Target (some ["a"]) (.item ["a"]) ∧ (loadedObjects.fs.load (.item ["a"])).isOk = true :=
  ⟨.item (by decide +kernel) rfl, rfl⟩

/-- The premises of `C114_create`: a path on which nothing is there after the section `sub`. -/
example : loadedObjects.walk .mgr ["sub", "new", "item"] = .error .keyError ∧ CleanPath "proj" ["sub", "new", "item"] ∧
    (loadedObjects.fs.load (.item ["sub", "new", "item"])).isOk = true := by
  refine ⟨rfl, by decide +kernel, rfl⟩

/-- The premises of `C114_reset_section`: a section without a config of its own. -/
def plainObjects : HS Nat := match HS.load { objectsFiles with tree := .mk false ["a"] [("sub", .mk false ["b"] [])] } "proj" with
  | .ok s => s
  | .error _ => ⟨objectsFiles, "", [], 0, 0, []⟩

example : plainObjects.hslot ["sub"] = .sect none ∧ (HM.reset (some ["sub"]) false plainObjects).1.isOk = true ∧
    HS.load { objectsFiles with tree := .mk false ["a"] [("sub", .mk false ["b"] [])] } "proj" = .ok plainObjects := by
  refine ⟨rfl, rfl, rfl⟩

end Verif.Props
