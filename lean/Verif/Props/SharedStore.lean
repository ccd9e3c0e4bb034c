import Verif.Props.Shared
import Verif.Props.Store

/-
C96: the model of values that are changed in place (`Verif/Model/Shared.lean`) against the model of the config manager
(`Verif/Model/Store.lean`).  As long as no value is changed in place, the two have the same values.
-/

namespace Verif.Props
open Verif.Py Verif.Model

variable {C : Type}

/-! ## Specification -/

/-- The references lead to the values, under the same names in the same order. -/
def Contents (w : Shared C) (c : Dict String Ref) (d : Dict String C) : Prop :=
  c.items.map (fun e => (e.1, w.heap e.2)) = d.items.map (fun e => (e.1, some e.2)) ∧
  ∀ k r, c.get? k = some r → r.1 < w.next

/-- The two models agree about the items with these paths: their files, configs and sections. -/
structure SameContents (fs : SharedFiles C) (items : List (List String)) (w : Shared C) (a : View C) : Prop where
  item : ∀ p ∈ items, p ≠ [] ∧ PlainPath a.rootName p ∧ (a.slot p).isItem = true
  file : ∀ p ∈ items, ∃ d, fs.item p = some d ∧ a.fs.read (.item p) = .ok d ∧ Conf.clash CMM.determineReserved d = false
  conf : ∀ p ∈ items, match w.confs.get? p with
    | some c => ∃ f, a.slot p = .conf f ∧ Contents w c f.values ∧ f.file = some (.item p)
    | none => a.slot p = .file (.item p)
  sect : ∀ p ∈ items, ∀ k, k < p.length → ∃ cfg, a.slot (p.take k) = .sect cfg ∧ match cfg with
    | some f => Contents w (w.sectConf (p.take k)) f.values ∧ f.file = some (.sect (p.take k))
    | none => w.sectConf (p.take k) = Dict.empty
  loc : Contents w w.loc a.localConf.values ∧ a.localConf.file = none

/-- The same operation of both, on the item at the path; functions change no argument in place, and no name of an update is one of
the parameters. -/
inductive SameOp (p : List String) : ShOp C → CMOp C → Prop where
  | get : SameOp p (.get p) (.get p)
  | run {body} (h : ∀ a, body a = []) : SameOp p (.run p body) (.get p)
  | update (kw) (h : Conf.clash CMM.determineReserved kw = false) (h' : Conf.clash Conf.updateReserved kw = false) :
    SameOp p (.update p kw) (.update none (some p) true kw)
  | reset : SameOp p (.reset p) (.reset (some p) false)

/-! ## Lemmas -/

namespace Sh

/-- The dictionary with other values. -/
def mapV {A B : Type} (f : A → B) (d : Dict String A) : Dict String B :=
  ⟨d.items.map (fun e => (e.1, f e.2)), by rw [List.map_map]; exact d.nodup⟩

theorem alist_set_map {A B : Type} (f : A → B) (l : List (String × A)) (k : String) (a : A) :
    (AList.set l k a).map (fun e => (e.1, f e.2)) = AList.set (l.map (fun e => (e.1, f e.2))) k (f a) := by
  induction l with
  | nil => rfl
  | cons e l ih =>
    obtain ⟨x, b⟩ := e
    by_cases h : x = k
    · simp [AList.set, h]
    · simp [AList.set, h, ih]

theorem mapV_set {A B : Type} (f : A → B) (d : Dict String A) (k : String) (a : A) :
    mapV f (d.set k a) = (mapV f d).set k (f a) := by
  apply Dict.ext_items
  exact alist_set_map f d.items k a

theorem mapV_update {A B : Type} (f : A → B) (d e : Dict String A) : mapV f (d.update e) = (mapV f d).update (mapV f e) := by
  unfold Dict.update Dict.setAll
  show _ = (e.items.map (fun e => (e.1, f e.2))).foldl _ _
  generalize e.items = l
  induction l generalizing d with
  | nil => rfl
  | cons x l ih =>
    rw [List.foldl_cons, List.map_cons, List.foldl_cons, ih, mapV_set]

theorem mapV_get? {A B : Type} (f : A → B) (d : Dict String A) (k : String) : (mapV f d).get? k = (d.get? k).map f := by
  unfold mapV Dict.get?
  simp only
  induction d.items with
  | nil => rfl
  | cons e l ih =>
    obtain ⟨x, b⟩ := e
    by_cases h : x = k
    · simp [AList.get?, h]
    · simp [AList.get?, h, ih]

theorem contents_iff (w : Shared C) (c : Dict String Ref) (d : Dict String C) :
    Contents w c d ↔ mapV w.heap c = mapV some d ∧ ∀ k r, c.get? k = some r → r.1 < w.next := by
  unfold Contents
  constructor
  · intro h; exact ⟨Dict.ext_items h.1, h.2⟩
  · intro h; exact ⟨congrArg Dict.items h.1, h.2⟩

theorem contents_update {w : Shared C} {c c' : Dict String Ref} {d d' : Dict String C} (h : Contents w c d)
    (h' : Contents w c' d') : Contents w (c.update c') (d.update d') := by
  rw [contents_iff] at *
  refine ⟨by rw [mapV_update, mapV_update, h.1, h'.1], ?_⟩
  intro k r hr
  rw [Dict.get?_update] at hr
  cases hc : c'.get? k with
  | some r' => rw [hc] at hr; cases hr; exact h'.2 k _ hc
  | none => rw [hc] at hr; exact h.2 k r hr

theorem contents_empty (w : Shared C) : Contents w Dict.empty Dict.empty :=
  ⟨rfl, fun _ _ h => by cases h⟩

/-- Executing a file changes no object that was there. -/
theorem contents_make {w : Shared C} {c : Dict String Ref} {d : Dict String C} (h : Contents w c d) (d' : Dict String C) :
    Contents (Shared.make d' w).2 c d := by
  refine ⟨?_, fun k r hr => Nat.lt_succ_of_lt (h.2 k r hr)⟩
  rw [← h.1]
  apply List.map_congr_left
  intro e he
  have : e.2.1 < w.next := h.2 e.1 e.2 ((Dict.mem_items_iff c e.1 e.2).1 he)
  show (e.1, if e.2.1 = w.next then d'.get? e.2.2 else w.heap e.2) = _
  rw [if_neg (Nat.ne_of_lt this)]

/-- The new objects have the values of the file. -/
theorem contents_new (w : Shared C) (d : Dict String C) : Contents (Shared.make d w).2 (Shared.refsOf w.next d) d := by
  refine ⟨?_, ?_⟩
  · show (d.items.map (fun e => (e.1, (w.next, e.1)))).map _ = _
    rw [List.map_map]
    apply List.map_congr_left
    intro e he
    show (e.1, if w.next = w.next then d.get? e.1 else _) = (e.1, some e.2)
    rw [if_pos rfl, (Dict.mem_items_iff d e.1 e.2).1 he]
  · intro k r hr
    rw [refsOf_get?] at hr
    cases hd : d.get? k with
    | none => rw [hd] at hr; cases hr
    | some v => rw [hd] at hr; cases hr; exact Nat.lt_succ_self _

/-- The same for a state that differs in the configs only. -/
theorem contents_congr {w w' : Shared C} {c : Dict String Ref} {d : Dict String C} (h : Contents w c d) (hh : w'.heap = w.heap)
    (hn : w'.next = w.next) : Contents w' c d := by
  unfold Contents at *
  rw [hh, hn]
  exact h

theorem contents_isEmpty {w : Shared C} {c : Dict String Ref} {d : Dict String C} (h : Contents w c d) :
    c.items.isEmpty = d.items.isEmpty := by
  have := h.1
  cases hc : c.items <;> cases hd : d.items <;> rw [hc, hd] at this <;> first | rfl | cases this

/-- The loop of `would_update` as a condition. -/
theorem wouldLoop_any [BEq C] (c : Conf C) (l : List (String × C)) :
    c.wouldUpdateLoop l = l.any (fun e => match c.values.get? e.1 with
      | none => false
      | some v => !(v == e.2)) := by
  induction l with
  | nil => rfl
  | cons e l ih =>
    obtain ⟨k, v⟩ := e
    unfold Conf.wouldUpdateLoop
    rw [List.any_cons]
    simp only
    cases c.values.get? k with
    | none => simpa using ih
    | some o =>
      simp only
      cases o == v
      · rfl
      · simpa using ih

/-- The comparison of contents is the comparison of values. -/
theorem contents_would [BEq C] {w : Shared C} {c kw : Dict String Ref} {d e : Dict String C} (h : Contents w c d)
    (h' : Contents w kw e) (f : Conf C) (hf : f.values = d) : w.wouldUpdate c kw = f.wouldUpdateLoop e.items := by
  rw [wouldLoop_any]
  unfold Shared.wouldUpdate
  have hg : ∀ k, (c.get? k).map w.heap = (d.get? k).map some := by
    intro k
    rw [← mapV_get?, ← mapV_get?, ((contents_iff _ _ _).1 h).1]
  have hl := h'.1
  rw [hf]
  generalize kw.items = l at hl
  generalize e.items = m at hl
  induction l generalizing m with
  | nil =>
    cases m with
    | nil => rfl
    | cons y m => cases hl
  | cons x l ih =>
    cases m with
    | nil => cases hl
    | cons y m =>
      obtain ⟨k, r⟩ := x
      obtain ⟨k', v⟩ := y
      rw [List.map_cons, List.map_cons] at hl
      have h1 := (List.cons.inj hl).1
      have h2 := (List.cons.inj hl).2
      simp only [Prod.mk.injEq] at h1
      obtain ⟨rfl, hr⟩ := h1
      rw [List.any_cons, List.any_cons, ih m h2]
      have := hg k
      cases hc : c.get? k with
      | none =>
        rw [hc] at this
        cases hd : d.get? k with
        | none => simp only [hc, hd]
        | some o => rw [hd] at this; cases this
      | some r' =>
        rw [hc] at this
        cases hd : d.get? k with
        | none => rw [hd] at this; cases this
        | some o =>
          rw [hd] at this
          have h3 : w.heap r' = some o := Option.some.inj this
          simp only [hc, hd, hr, h3]
          rfl

theorem determine_kw [BEq C] (f : Conf C) (kw : Dict String C) (h : Conf.clash CMM.determineReserved kw = false) :
    CMM.determineWouldUpdate f none kw = .ok (f.wouldUpdateLoop kw.items) := by
  unfold CMM.determineWouldUpdate Conf.wouldUpdate
  rw [h]
  simp only [Bool.false_eq_true, if_false]
  rw [Dict.update_empty, Dict.empty_update]

end Sh

namespace SameContents
variable {fs : SharedFiles C} {items : List (List String)} {w : Shared C} {a : View C} {p : List String}

/-- New objects. -/
theorem make (h : SameContents fs items w a) (d : Dict String C) : SameContents fs items (Shared.make d w).2 a := by
  refine ⟨h.item, h.file, ?_, ?_, ⟨Sh.contents_make h.loc.1 d, h.loc.2⟩⟩
  · intro q hq
    have hc := h.conf q hq
    show match w.confs.get? q with
      | some c => ∃ f, a.slot q = .conf f ∧ Contents (Shared.make d w).2 c f.values ∧ f.file = some (.item q)
      | none => a.slot q = .file (.item q)
    cases hw : w.confs.get? q with
    | none => rw [hw] at hc; exact hc
    | some c =>
      rw [hw] at hc
      obtain ⟨f, h1, h2, h3⟩ := hc
      exact ⟨f, h1, Sh.contents_make h2 d, h3⟩
  · intro q hq k hk
    obtain ⟨cfg, h1, h2⟩ := h.sect q hq k hk
    refine ⟨cfg, h1, ?_⟩
    cases cfg with
    | none => exact h2
    | some f => exact ⟨Sh.contents_make h2.1 d, h2.2⟩

/-- The item has another config now. -/
theorem store (h : SameContents fs items w a) (hp : p ∈ items) {c : Dict String Ref} {f : Conf C}
    (hc : Contents w c f.values) (hf : f.file = some (.item p)) :
    SameContents fs items { w with confs := w.confs.set p c } (a.setConf p f) := by
  refine ⟨?_, h.file, ?_, ?_, h.loc⟩
  · intro q hq
    obtain ⟨h1, h2, h3⟩ := h.item q hq
    refine ⟨h1, h2, ?_⟩
    by_cases hqp : q = p
    · rw [hqp, View.setConf_slot_self]; rfl
    · rw [View.setConf_slot_ne _ _ hqp]; exact h3
  · intro q hq
    by_cases hqp : q = p
    · subst hqp
      simp only [Dict.get?_set_self]
      exact ⟨f, View.setConf_slot_self _ _ _, hc, hf⟩
    · simp only [Dict.get?_set_ne _ _ (Ne.symm hqp), View.setConf_slot_ne _ _ hqp]
      exact h.conf q hq
  · intro q hq k hk
    rw [View.setConf_slot_ne]
    · exact h.sect q hq k hk
    · intro heq
      obtain ⟨cfg, h1, _⟩ := h.sect q hq k hk
      have h2 := (h.item p hp).2.2
      rw [← heq, h1] at h2
      cases h2

/-- The config of an item, loaded if it is not yet. -/
theorem own (h : SameContents fs items w a) (hp : p ∈ items) :
    ∃ c f w', Shared.ownConf fs p w = (.ok c, w') ∧ a.own p = .ok f ∧ Contents w' c f.values ∧ f.file = some (.item p) ∧
      SameContents fs items w' (a.setConf p f) ∧ (∀ x d, Contents w x d → Contents w' x d) := by
  have hc := h.conf p hp
  rw [Sh.ownConf_run]
  unfold View.own
  cases hw : w.confs.get? p with
  | some c =>
    rw [hw] at hc
    obtain ⟨f, h1, h2, h3⟩ := hc
    refine ⟨c, f, w, rfl, by rw [h1], h2, h3, ?_, fun _ _ h => h⟩
    rw [View.setConf_self h1]
    exact h
  | none =>
    rw [hw] at hc
    obtain ⟨d, h1, h2, _⟩ := h.file p hp
    have hld : a.fs.load (.item p) = .ok (Conf.ofFile (.item p) d) := by
      unfold Files.load
      rw [h2]
    refine ⟨Shared.refsOf w.next d, Conf.ofFile (.item p) d, _, by rw [h1], by rw [hc]; exact hld, ?_, rfl, ?_, ?_⟩
    · exact Sh.contents_congr (Sh.contents_new w d) rfl rfl
    · exact (h.make d).store hp (Sh.contents_new w d) rfl
    · intro x d' hx
      exact Sh.contents_congr (Sh.contents_make hx d) rfl rfl

/-- The values with those of the sections and of the local config. -/
theorem inherits (h : SameContents fs items w a) (hp : p ∈ items) {c : Dict String Ref} {f : Conf C}
    (hc : Contents w c f.values) (hf : f.file = some (.item p)) :
    Contents w (w.inherit p c) (CMM.overridden a p f).values ∧ (CMM.overridden a p f).file = some (.item p) := by
  have hlevel : ∀ (x : Dict String Ref) (l : Option (Conf C)) (c : Dict String Ref) (f : Conf C), Contents w c f.values →
      f.file = some (.item p) → (match l with
        | some g => Contents w x g.values ∧ g.file ≠ some (.item p)
        | none => x = Dict.empty) →
      Contents w (c.update x) (CMM.applyLevel f l).values ∧ (CMM.applyLevel f l).file = some (.item p) := by
    intro x l c f hc hf hl
    cases l with
    | none =>
      rw [hl]
      exact ⟨hc, hf⟩
    | some g =>
      obtain ⟨h1, h2⟩ := hl
      unfold CMM.applyLevel
      simp only
      rw [if_neg (fun hh => h2 (hh.2.trans hf))]
      exact ⟨(Sh.contents_update hc h1 : Contents w (c.update x) (f.values.update g.values)), hf⟩
  have hfold : ∀ ks : List Nat, (∀ k ∈ ks, k < p.length) → ∀ (c : Dict String Ref) (f : Conf C), Contents w c f.values →
      f.file = some (.item p) →
      Contents w ((ks.map (fun i => p.take i)).foldl (fun c s => c.update (w.sectConf s)) c)
        ((ks.map (fun k => a.sectCfg (p.take k))).foldl CMM.applyLevel f).values ∧
      ((ks.map (fun k => a.sectCfg (p.take k))).foldl CMM.applyLevel f).file = some (.item p) := by
    intro ks
    induction ks with
    | nil => intro _ c f hc hf; exact ⟨hc, hf⟩
    | cons k ks ih =>
      intro hks c f hc hf
      simp only [List.map_cons, List.foldl_cons]
      have hl := hlevel (w.sectConf (p.take k)) (a.sectCfg (p.take k)) c f hc hf (by
        obtain ⟨cfg, h1, h2⟩ := h.sect p hp k (hks k List.mem_cons_self)
        unfold View.sectCfg
        rw [h1]
        cases cfg with
        | none => exact h2
        | some g =>
          refine ⟨h2.1, ?_⟩
          show g.file ≠ _
          rw [h2.2]
          simp)
      exact ih (fun k hk => hks k (List.mem_cons_of_mem _ hk)) _ _ hl.1 hl.2
  obtain ⟨h1, h2⟩ := hfold (List.range p.length) (fun k hk => List.mem_range.1 hk) c f hc hf
  unfold CMM.overridden Shared.inherit Shared.around View.levels
  rw [List.foldl_append, List.foldl_cons, List.foldl_nil]
  refine hlevel w.loc (some a.localConf) _ _ h1 h2 ⟨h.loc.1, ?_⟩
  rw [h.loc.2]
  simp

theorem isItem {s : CM C} (h : SameContents fs items w s.view) (hp : p ∈ items) : IsItem s p :=
  ⟨(h.item p hp).1, (h.item p hp).2.1, (h.item p hp).2.2⟩

theorem get {s : CM C} (h : SameContents fs items w s.view) (hp : p ∈ items) :
    (∃ c f, (Shared.get fs p w).1 = .ok c ∧ (CMM.get p s).1 = .ok (some f) ∧ Contents (Shared.get fs p w).2 c f.values) ∧
    SameContents fs items (Shared.get fs p w).2 (CMM.get p s).2.view := by
  obtain ⟨c, f, w', h1, h2, h3, h4, h5, _⟩ := h.own hp
  have hv := CMM.vget_item (h.isItem hp).item
  have hr := CMM.get_ref (h.isItem hp)
  unfold CMM.Ref at hr
  rw [hr, h2] at hv
  simp only at hv
  rw [Sh.get_run, h1]
  simp only
  by_cases he : c.items.isEmpty = true
  · rw [if_pos (by rw [← Sh.contents_isEmpty h3]; exact he)] at hv
    rw [if_pos he]
    have g1 := congrArg Prod.fst hv
    have g2 := congrArg Prod.snd hv
    simp only at g1 g2
    rw [g2]
    exact ⟨⟨c, f, rfl, g1, h3⟩, h5⟩
  · rw [if_neg (by rw [← Sh.contents_isEmpty h3]; exact he)] at hv
    rw [if_neg he]
    have g1 := congrArg Prod.fst hv
    have g2 := congrArg Prod.snd hv
    simp only at g1 g2
    obtain ⟨i1, i2⟩ := h5.inherits hp h3 h4
    have := h5.store hp i1 i2
    rw [View.setConf_setConf] at this
    rw [g2]
    exact ⟨⟨_, _, rfl, g1, Sh.contents_congr i1 rfl rfl⟩, this⟩

theorem update [BEq C] {s : CM C} (h : SameContents fs items w s.view) (hp : p ∈ items) (kw : Dict String C)
    (hk : Conf.clash CMM.determineReserved kw = false) (hk' : Conf.clash Conf.updateReserved kw = false) :
    SameContents fs items ((Shared.make kw >>= fun v => Shared.update fs p v) w).2 (CMM.update none (some p) true kw s).2.view := by
  have hnew := Sh.contents_new w kw
  have hm := h.make kw
  have hmk : Shared.make kw w = (.ok (Shared.refsOf w.next kw), (Shared.make kw w).2) := rfl
  rw [M.bind_ok hmk]
  generalize Shared.refsOf w.next kw = v at hnew
  generalize (Shared.make kw w).2 = w1 at hm hnew
  obtain ⟨c, f, w', h1, h2, h3, h4, h5, h6⟩ := hm.own hp
  have hv := CMM.vupdate_item (h.isItem hp).item none true kw
  have hr := CMM.update_ref (h.isItem hp) none true kw
  unfold CMM.Ref at hr
  rw [hr, h2] at hv
  simp only [Sh.determine_kw f kw hk, hk', Bool.false_eq_true, if_false] at hv
  unfold Shared.update
  rw [M.bind_ok h1, M.bind_ok (M.get_run _), Sh.contents_would h3 (h6 _ _ hnew) f rfl]
  have g2 := congrArg Prod.snd hv
  cases hb : f.wouldUpdateLoop kw.items with
  | false =>
    rw [hb] at g2
    simp only at g2
    rw [g2]
    exact h5
  | true =>
    rw [hb] at g2
    simp only at g2
    rw [g2]
    have hc : Contents w' (c.update v) (f.update none true kw).values := Sh.contents_update h3 (h6 _ _ hnew)
    have := h5.store hp (f := f.update none true kw) hc h4
    rw [View.setConf_setConf] at this
    exact this

theorem reset [BEq C] {s : CM C} (h : SameContents fs items w s.view) (hp : p ∈ items) :
    (Shared.reset fs p w).1 = .ok () ∧ (∃ r, (CMM.reset (some p) false s).1 = .ok r) ∧
    SameContents fs items (Shared.reset fs p w).2 (CMM.reset (some p) false s).2.view := by
  obtain ⟨d, hd, hread, hcl⟩ := h.file p hp
  have hnew := Sh.contents_new w d
  have hm := h.make d
  have hmk : Shared.make d w = (.ok (Shared.refsOf w.next d), (Shared.make d w).2) := rfl
  unfold Shared.reset
  rw [hd]
  simp only
  rw [M.bind_ok hmk]
  generalize Shared.refsOf w.next d = v at hnew
  generalize (Shared.make d w).2 = w1 at hm hnew
  obtain ⟨c, f, w', h1, h2, h3, h4, h5, h6⟩ := hm.own hp
  have hv := CMM.vreset_item (h.isItem hp).item
  have hr := CMM.reset_ref (h.isItem hp)
  unfold CMM.Ref at hr
  have hld : s.view.fs.load (.item p) = .ok (Conf.ofFile (.item p) d) := by
    unfold Files.load
    rw [hread]
  have hval : (Conf.ofFile (FileLoc.item p) d).values = d := rfl
  rw [hr, h2, hld] at hv
  simp only [hval, Sh.determine_kw f d hcl] at hv
  rw [M.bind_ok h1, M.bind_ok (M.get_run _), Sh.contents_would h3 (h6 _ _ hnew) f rfl]
  have g1 := congrArg Prod.fst hv
  have g2 := congrArg Prod.snd hv
  cases hb : f.wouldUpdateLoop d.items with
  | false =>
    rw [hb] at g1 g2
    simp only at g1 g2
    rw [g2]
    exact ⟨rfl, ⟨_, g1⟩, h5⟩
  | true =>
    rw [hb] at g1 g2
    simp only at g1 g2
    rw [g2]
    have := h5.store hp (f := Conf.ofFile (.item p) d) (h6 _ _ hnew) rfl
    rw [View.setConf_setConf] at this
    exact ⟨rfl, ⟨_, g1⟩, this⟩

end SameContents

namespace Sh

theorem loadSects_contents (fs : SharedFiles C) (ss : List (List String)) (w : Shared C) :
    (Shared.loadSects fs ss w).2.confs = w.confs ∧ (Shared.loadSects fs ss w).2.loc = w.loc ∧
    (∀ c d, Contents w c d → Contents (Shared.loadSects fs ss w).2 c d) ∧
    (∀ q, q ∉ ss → (Shared.loadSects fs ss w).2.sectConf q = w.sectConf q) ∧
    ∀ q ∈ ss, Contents (Shared.loadSects fs ss w).2 ((Shared.loadSects fs ss w).2.sectConf q) (fs.sect q) := by
  induction ss generalizing w with
  | nil => exact ⟨rfl, rfl, fun _ _ h => h, fun _ _ => rfl, fun q hq => by cases hq⟩
  | cons x ss ih =>
    unfold Shared.loadSects
    have hmk : Shared.make (fs.sect x) w = (.ok (Shared.refsOf w.next (fs.sect x)), (Shared.make (fs.sect x) w).2) := rfl
    rw [M.bind_ok hmk, M.bind_ok (M.modify_run _ _)]
    have hnew := contents_new w (fs.sect x)
    have hold : ∀ c d, Contents w c d → Contents (Shared.make (fs.sect x) w).2 c d := fun c d h => contents_make h _
    have hc : (Shared.make (fs.sect x) w).2.confs = w.confs := rfl
    have hl : (Shared.make (fs.sect x) w).2.loc = w.loc := rfl
    have hs : (Shared.make (fs.sect x) w).2.sects = w.sects := rfl
    generalize Shared.refsOf w.next (fs.sect x) = v at hnew
    generalize (Shared.make (fs.sect x) w).2 = w1 at hnew hold hc hl hs
    obtain ⟨i1, i2, i3, i4, i5⟩ := ih { w1 with sects := w1.sects.set x v }
    refine ⟨i1.trans hc, i2.trans hl, fun c d h => i3 c d (contents_congr (hold c d h) rfl rfl), ?_, ?_⟩
    · intro q hq
      rw [List.mem_cons, not_or] at hq
      rw [i4 q hq.2]
      unfold Shared.sectConf
      simp only [Dict.get?_set_ne _ _ (Ne.symm hq.1), hs]
    · intro q hq
      by_cases hq2 : q ∈ ss
      · exact i5 q hq2
      · have hqx : q = x := by
          rcases List.mem_cons.1 hq with h | h
          · exact h
          · exact absurd h hq2
        subst hqx
        rw [i4 q hq2]
        refine i3 _ _ ?_
        have : ({ w1 with sects := w1.sects.set q v } : Shared C).sectConf q = v := by
          unfold Shared.sectConf
          simp only [Dict.get?_set_self]
          rfl
        rw [this]
        exact contents_congr hnew rfl rfl

end Sh

/-! ## Theorems -/

/-- An operation that changes no value in place. -/
theorem C96_store_partial [BEq C] {fs : SharedFiles C} {items : List (List String)} {w : Shared C} {s : CM C}
    (h : SameContents fs items w s.view) {p : List String} (hp : p ∈ items) {a : ShOp C} {b : CMOp C} (hab : SameOp p a b) :
    SameContents fs items (a.exec fs w) (s.step b).view := by
  cases hab with
  | get => exact (h.get hp).2
  | run hbody =>
    rename_i body
    obtain ⟨⟨c, f, g1, _, _⟩, g2⟩ := h.get hp
    show SameContents fs items (Shared.run fs p body w).2 _
    unfold Shared.run
    have hg : Shared.get fs p w = (.ok c, (Shared.get fs p w).2) := by rw [← g1]
    rw [M.bind_ok hg, M.modify_run, hbody]
    exact g2
  | update kw hk hk' => exact h.update hp kw hk hk'
  | reset => exact (h.reset hp).2.2

/-- Operations one after another. -/
inductive SameOps (items : List (List String)) : List (ShOp C) → List (CMOp C) → Prop where
  | nil : SameOps items [] []
  | cons {p a b as bs} : p ∈ items → SameOp p a b → SameOps items as bs → SameOps items (a :: as) (b :: bs)

/-- After operations that change no value in place, the active config of an item has the same values in both models. -/
theorem C96_store_all_partial [BEq C] {fs : SharedFiles C} {items : List (List String)} {as : List (ShOp C)}
    {bs : List (CMOp C)} (hops : SameOps items as bs) {w : Shared C} {s : CM C} (h : SameContents fs items w s.view) :
    ∀ p ∈ items, ∃ f, (CMM.get p (bs.foldl CM.step s)).1 = .ok (some f) ∧
      ∀ k, sharedShows fs (ShOp.after fs w as) p k = f.values.get? k := by
  induction hops generalizing w s with
  | nil =>
    intro p hp
    obtain ⟨⟨c, f, g1, g2, g3⟩, _⟩ := h.get hp
    refine ⟨f, g2, fun k => ?_⟩
    unfold sharedShows ShOp.after
    rw [List.foldl_nil]
    have hg : Shared.get fs p w = (.ok c, (Shared.get fs p w).2) := by rw [← g1]
    rw [hg]
    simp only
    have := ((Sh.contents_iff _ _ _).1 g3).1
    have hk := congrArg (fun d => Dict.get? d k) this
    simp only [Sh.mapV_get?] at hk
    cases hc : c.get? k with
    | none =>
      rw [hc] at hk
      cases hf : f.values.get? k with
      | none => rfl
      | some v => rw [hf] at hk; cases hk
    | some r =>
      rw [hc] at hk
      cases hf : f.values.get? k with
      | none => rw [hf] at hk; cases hk
      | some v => rw [hf] at hk; exact Option.some.inj hk
  | cons hp hab _ ih => exact ih (C96_store_partial h hp hab)

/-- A manager that was just loaded: its items are not loaded yet, and the section files `ss` were executed. -/
theorem C96_store_start_partial {fs : SharedFiles C} {items ss : List (List String)} {s : CM C}
    (hitem : ∀ p ∈ items, IsItem s p ∧ s.view.slot p = .file (.item p))
    (hfile : ∀ p ∈ items, ∃ d, fs.item p = some d ∧ s.fs.read (.item p) = .ok d ∧ Conf.clash CMM.determineReserved d = false)
    (hsect : ∀ p ∈ items, ∀ k, k < p.length → ∃ cfg, s.view.slot (p.take k) = .sect cfg ∧ match cfg with
      | some f => p.take k ∈ ss ∧ f.values = fs.sect (p.take k) ∧ f.file = some (.sect (p.take k))
      | none => p.take k ∉ ss)
    (hloc : s.localConf = Conf.ofDict Dict.empty) : SameContents fs items (sharedLoaded fs ss) s.view := by
  obtain ⟨h1, h2, _, h4, h5⟩ := Sh.loadSects_contents fs ss Shared.empty
  unfold sharedLoaded
  refine ⟨fun p hp => ⟨(hitem p hp).1.ne, (hitem p hp).1.plain, (hitem p hp).1.item⟩, hfile, ?_, ?_, ?_⟩
  · intro p hp
    rw [h1]
    exact (hitem p hp).2
  · intro p hp k hk
    obtain ⟨cfg, g1, g2⟩ := hsect p hp k hk
    refine ⟨cfg, g1, ?_⟩
    cases cfg with
    | none => exact h4 _ g2
    | some f =>
      refine ⟨?_, g2.2.2⟩
      rw [g2.2.1]
      exact h5 _ g2.1
  · have : s.view.localConf = Conf.ofDict Dict.empty := hloc
    rw [h2, this]
    exact ⟨Sh.contents_empty _, rfl⟩

/-- The files of the project `demo`. -/
def demoShared : SharedFiles Nat where
  item p := (demoFiles.read (.item p)).toOption
  sect p := match demoFiles.read (.sect p) with
    | .ok d => d
    | .error _ => Dict.empty

/-- The paths of its items. -/
def demoItems : List (List String) := [["main", "data", "func"], ["main", "data", "noargs"]]

theorem demoShared_start : SameContents demoShared demoItems (sharedLoaded demoShared [[], ["main"], ["main", "data"]]) demo.view := by
  refine C96_store_start_partial ?_ ?_ ?_ rfl
  · intro p hp
    simp only [demoItems, List.mem_cons, List.not_mem_nil, or_false] at hp
    rcases hp with rfl | rfl
    · exact ⟨demo_item.isItem, rfl⟩
    · exact ⟨demo_noargs.isItem, rfl⟩
  · intro p hp
    simp only [demoItems, List.mem_cons, List.not_mem_nil, or_false] at hp
    rcases hp with rfl | rfl
    · exact ⟨_, rfl, rfl, by decide⟩
    · exact ⟨_, rfl, rfl, by decide⟩
  · intro p hp k hk
    have hp3 : p = ["main", "data", "func"] ∨ p = ["main", "data", "noargs"] := by
      simpa only [demoItems, List.mem_cons, List.not_mem_nil, or_false] using hp
    have h3 : k = 0 ∨ k = 1 ∨ k = 2 := by
      rcases hp3 with rfl | rfl <;> simp at hk <;> omega
    rcases hp3 with rfl | rfl <;> rcases h3 with rfl | rfl | rfl <;>
      exact ⟨some _, rfl, by simp, rfl, rfl⟩

/-- Running the function, which changes nothing, and updating it: the hypotheses hold. -/
example : SameOps (C := Nat) demoItems
    [.run ["main", "data", "func"] (fun _ => []), .update ["main", "data", "func"] (Dict.ofList [("c", 7)])]
    [.get ["main", "data", "func"], .update none (some ["main", "data", "func"]) true (Dict.ofList [("c", 7)])] :=
  .cons (by simp [demoItems]) (.run (fun _ => rfl)) (.cons (by simp [demoItems]) (.update _ (by decide) (by decide)) .nil)

/-- The values then. -/
example : ["a", "b", "c"].map (sharedShows demoShared (ShOp.after demoShared (sharedLoaded demoShared [[], ["main"], ["main", "data"]])
    [.run ["main", "data", "func"] (fun _ => []), .update ["main", "data", "func"] (Dict.ofList [("c", 7)])])
    ["main", "data", "func"]) = [some 2, some 3, some 7] := by decide +kernel

end Verif.Props
