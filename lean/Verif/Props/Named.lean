import Verif.Model.Named

/-
Property theorems about the names of registered items: C97.
-/

namespace Verif.Props
open Verif.Py Verif.Model

/-! ## C97 -/

/-! ### Specification -/

/-- The name an entry is meant to have: a function or class its own, a pipeline the one in its call. -/
inductive EntryName : EntryExpr → String → Prop
  | plain {x : String} (h : x ≠ "DataPipeline") : EntryName (.name x) x
  | pipeline {args : List String} {kws : List (String × String)} {s : String} (hn : (kws.map Prod.fst).Nodup)
      (h : ("name", s) ∈ kws) :
      EntryName (.call (.name "DataPipeline") (args.map .str) (kws.map (fun e => (e.1, .str e.2)))) s

/-- The entries of a section with the names they are meant to have. -/
inductive EntryNames : List EntryExpr → List String → Prop
  | nil : EntryNames [] []
  | cons {e : EntryExpr} {s : String} {es : List EntryExpr} {ss : List String} (h : EntryName e s) (t : EntryNames es ss) :
      EntryNames (e :: es) (s :: ss)

/-- Whether the entry is a call. -/
def isCallEntry : EntryExpr → Bool
  | .call _ _ _ => true
  | _ => false

/-! ### Lemmas -/

namespace Nm

/-- The view of such an entry after it was asked for its name. -/
def kept (e : EntryExpr) (s : String) : EntryView :=
  if isCallEntry e then ⟨e, some (some "DataPipeline"), some s⟩ else ⟨e, some (some s), none⟩

theorem exprsNames_str (args : List String) : exprsNames (args.map .str) = [] := by
  induction args with
  | nil => rfl
  | cons a as ih => rw [List.map_cons, exprsNames, ih, exprNames]; rfl

theorem kwargsNames_str (kws : List (String × String)) : kwargsNames (kws.map (fun e => (e.1, .str e.2))) = [] := by
  induction kws with
  | nil => rfl
  | cons a as ih => rw [List.map_cons, kwargsNames, ih, exprNames]; rfl

theorem kwNamedAll_str (k : String) (args : List String) : kwNamedAll k (args.map .str) = [] := by
  induction args with
  | nil => rfl
  | cons a as ih => rw [List.map_cons, kwNamedAll, ih, kwNamed]; rfl

theorem kwNamedIn_str (k s : String) (kws : List (String × String)) (hn : (kws.map Prod.fst).Nodup) :
    ((k, s) ∈ kws → kwNamedIn k (kws.map (fun e => (e.1, .str e.2))) = [.str s]) ∧
    (k ∉ kws.map Prod.fst → kwNamedIn k (kws.map (fun e => (e.1, .str e.2))) = []) := by
  induction kws with
  | nil => exact ⟨(fun h => by cases h), fun _ => rfl⟩
  | cons a as ih =>
    obtain ⟨k', s'⟩ := a
    rw [List.map_cons, List.nodup_cons] at hn
    obtain ⟨h1, h2⟩ := ih hn.2
    rw [List.map_cons, kwNamedIn]
    constructor
    · intro h
      rcases List.mem_cons.1 h with h | h
      · cases h
        rw [if_pos rfl, h2 hn.1, kwNamed]
        rfl
      · have hne : k' ≠ k := by
          intro he
          subst he
          exact hn.1 (List.mem_map.2 ⟨_, h, rfl⟩)
        rw [if_neg hne]
        exact h1 h
    · intro h
      rw [List.map_cons, List.mem_cons, not_or] at h
      rw [if_neg (Ne.symm h.1)]
      exact h2 h.2

theorem externalName_call (args : List String) (kws : List (String × String)) :
    externalName (.call (.name "DataPipeline") (args.map .str) (kws.map (fun e => (e.1, .str e.2)))) =
      .ok (some "DataPipeline") := by
  unfold externalName
  rw [exprNames, exprsNames_str, kwargsNames_str, exprNames]
  rfl

theorem externalName_name (x : String) : externalName (.name x) = .ok (some x) := by
  unfold externalName
  rw [exprNames]

/-- The first access. -/
theorem setName_run {e : EntryExpr} {s : String} (h : EntryName e s) :
    EntryView.setName ⟨e, none, none⟩ = (.ok (), kept e s) := by
  unfold EntryView.setName
  cases h with
  | plain h =>
    rw [M.bind_ok (M.get_run _)]
    simp only [externalName_name]
    have : ¬ (some s = some "DataPipeline") := fun h' => h (Option.some.inj h')
    simp only [M.liftE_run, M.bind_run, if_neg this]
    rfl
  | @pipeline args kws s hn h =>
    rw [M.bind_ok (M.get_run _)]
    have hk : (kwNamed "name" (.call (.name "DataPipeline") (args.map .str) (kws.map (fun e => (e.1, .str e.2))))).getLast? =
        some (.str s) := by
      rw [kwNamed, kwNamed, kwNamedAll_str, (kwNamedIn_str "name" s kws hn).1 h]
      rfl
    simp only [externalName_call, hk]
    rfl

theorem kept_cases {e : EntryExpr} {s : String} (h : EntryName e s) :
    (kept e s = ⟨e, some (some s), none⟩ ∧ e = .name s ∧ s ≠ "DataPipeline") ∨
    (kept e s = ⟨e, some (some "DataPipeline"), some s⟩ ∧ isCallEntry e = true) := by
  cases h with
  | plain h => exact .inl ⟨rfl, rfl, h⟩
  | pipeline hn h => exact .inr ⟨rfl, rfl⟩

theorem getName_first {e : EntryExpr} {s : String} (h : EntryName e s) :
    EntryView.getName ⟨e, none, none⟩ = (.ok (if isCallEntry e then some "DataPipeline" else some s), kept e s) := by
  unfold EntryView.getName
  rw [M.bind_ok (M.get_run _)]
  simp only
  rw [M.bind_ok (setName_run h), M.bind_ok (M.get_run _)]
  unfold kept
  split <;> rfl

theorem getName_kept (e : EntryExpr) (s : String) :
    EntryView.getName (kept e s) = (.ok (if isCallEntry e then some "DataPipeline" else some s), kept e s) := by
  unfold EntryView.getName
  rw [M.bind_ok (M.get_run _)]
  unfold kept
  split <;> rfl

theorem getOutputName_first {e : EntryExpr} {s : String} (h : EntryName e s) :
    EntryView.getOutputName ⟨e, none, none⟩ =
      (.ok (if isCallEntry e then some "DataPipeline" else some s), kept e s) := by
  unfold EntryView.getOutputName
  rw [M.bind_ok (M.get_run _)]
  exact getName_first h

theorem getOutputName_kept {e : EntryExpr} {s : String} (h : EntryName e s) :
    EntryView.getOutputName (kept e s) = (.ok (some s), kept e s) := by
  unfold EntryView.getOutputName
  rw [M.bind_ok (M.get_run _)]
  rcases kept_cases h with ⟨hk, he, -⟩ | ⟨hk, -⟩
  · rw [hk, ← hk]
    simp only [hk]
    rw [← hk, getName_kept e s, he]
    rfl
  · rw [hk]
    rfl

theorem has_ok {get : EV (Option String)} {v v' : EntryView} {n : Option String} (h : get v = (.ok n, v')) :
    EntryView.has get v = (.ok true, v') := by
  unfold EntryView.has M.tryCatch
  rw [M.bind_ok h]
  rfl

theorem publicName_first {e : EntryExpr} {s : String} (h : EntryName e s) :
    EntryView.publicName true ⟨e, none, none⟩ = (.ok (some s), kept e s) := by
  unfold EntryView.publicName
  rw [if_pos rfl, M.bind_ok (has_ok (getOutputName_first h))]
  exact getOutputName_kept h

theorem publicName_kept {e : EntryExpr} {s : String} (h : EntryName e s) :
    EntryView.publicName true (kept e s) = (.ok (some s), kept e s) := by
  unfold EntryView.publicName
  rw [if_pos rfl, M.bind_ok (has_ok (getOutputName_kept h))]
  exact getOutputName_kept h

theorem pathName_kept (e : EntryExpr) (s : String) :
    EntryView.publicName false (kept e s) =
      (.ok (if isCallEntry e then some "DataPipeline" else some s), kept e s) := by
  unfold EntryView.publicName
  simp only [Bool.false_eq_true, if_false]
  rw [M.bind_ok (has_ok (getName_kept e s))]
  exact getName_kept e s

/-- All views of a section, one after the other. -/
theorem eachView_first {es : List EntryExpr} {ss : List String} (h : EntryNames es ss) :
    eachView (EntryView.publicName true) (es.map (fun e => ⟨e, none, none⟩)) =
      .ok (ss.map some, List.zipWith kept es ss) := by
  induction h with
  | nil => rfl
  | cons h _ ih =>
    rw [List.map_cons, eachView, publicName_first h, ih]
    rfl

/-- Asking them again gives what is kept. -/
theorem eachView_kept {α : Type} (act : EV α) (g : EntryExpr → String → α) {es : List EntryExpr} {ss : List String}
    (hact : ∀ e s, EntryName e s → act (kept e s) = (.ok (g e s), kept e s)) (h : EntryNames es ss) :
    eachView act (List.zipWith kept es ss) = .ok (List.zipWith g es ss, List.zipWith kept es ss) := by
  induction h with
  | nil => rfl
  | cons h _ ih =>
    rw [List.zipWith_cons_cons, eachView, hact _ _ h, ih]
    rfl

theorem zipWith_snd {β : Type} (g : String → β) {es : List EntryExpr} {ss : List String} (h : EntryNames es ss) :
    List.zipWith (fun _ s => g s) es ss = ss.map g := by
  induction h with
  | nil => rfl
  | cons h _ ih => rw [List.zipWith_cons_cons, ih]; rfl

theorem section_run {es : List EntryExpr} {ss : List String} (h : EntryNames es ss) :
    sectionOfEntries es = .ok (ss.map some, List.zipWith kept es ss) := by
  unfold sectionOfEntries
  rw [eachView_first h]
  simp only
  rw [eachView_kept _ (fun _ s => some s) (fun e s hs => publicName_kept hs) h, zipWith_snd some h]

theorem findView_missing {names : List (Option String)} {x : Option String} (h : x ∉ names) :
    findView names x = .error .attributeError := by
  unfold findView
  rw [List.findIdx?_eq_none_iff.2]
  intro y hy
  rw [List.mem_reverse] at hy
  simp only [decide_eq_false_iff_not]
  intro he
  exact h (he ▸ hy)

theorem findView_found {names : List (Option String)} (hn : names.Nodup) {i : Nat} {x : Option String}
    (h : names[i]? = some x) : findView names x = .ok i := by
  obtain ⟨hi, hx⟩ := List.getElem?_eq_some_iff.1 h
  unfold findView
  have : names.reverse.findIdx? (fun n => decide (n = x)) = some (names.length - 1 - i) := by
    rw [List.findIdx?_eq_some_iff_getElem]
    refine ⟨by rw [List.length_reverse]; omega, ?_, ?_⟩
    · rw [List.getElem_reverse]
      have : names.length - 1 - (names.length - 1 - i) = i := by omega
      simp only [this, hx, decide_true]
    · intro j hj
      rw [List.getElem_reverse]
      simp only [decide_eq_true_eq]
      intro he
      have hlt : names.length - 1 - j < names.length := by omega
      exact List.pairwise_iff_getElem.1 hn i (names.length - 1 - j) hi hlt (by omega) (hx.trans he.symm)
  rw [this]
  simp only [Except.ok.injEq]
  omega

end Nm

/-! ### Theorems -/

/-- C97.  The section can be made; its name map has the name each entry is meant to have, and these are the names of the config
files. -/
theorem C97_registered (es : List EntryExpr) (ss : List String) (h : EntryNames es ss) :
    ∃ vs, sectionOfEntries es = .ok (ss.map some, vs) ∧
      eachView viewFile vs = .ok (ss.map (fun s => s ++ ".py"), vs) := by
  refine ⟨_, Nm.section_run h, ?_⟩
  rw [Nm.eachView_kept viewFile (fun _ s => s ++ ".py") (fun e s hs => by
    unfold viewFile
    rw [M.bind_ok (Nm.getOutputName_kept hs)]
    rfl) h, Nm.zipWith_snd _ h]

/-- C97.  If the names are different each entry is found under its own name, and nothing under any other. -/
theorem C97_found (es : List EntryExpr) (ss : List String) (h : EntryNames es ss) (hn : ss.Nodup) :
    ∃ names vs, sectionOfEntries es = .ok (names, vs) ∧
      (∀ i s, ss[i]? = some s → findView names (some s) = .ok i) ∧
      ∀ s, s ∉ ss → findView names (some s) = .error .attributeError := by
  refine ⟨_, _, Nm.section_run h, ?_, ?_⟩
  · intro i s hs
    refine Nm.findView_found ?_ (by rw [List.getElem?_map, hs]; rfl)
    exact List.Pairwise.map some (fun a b hab he => hab (Option.some.inj he)) hn
  · intro s hs
    refine Nm.findView_missing ?_
    intro hm
    obtain ⟨s', hs', he⟩ := List.mem_map.1 hm
    exact hs (Option.some.inj he ▸ hs')

/-- The name under which the runner looks for an item while it runs or gets the section (runner.py:157-159, 265-272). -/
def pathNames (vs : List EntryView) : Except PyErr (List (Option String)) :=
  (eachView (EntryView.publicName false) vs).map Prod.fst

/-- C97, for functions and classes: the runner looks for them under the name they are registered under. -/
theorem C97_plain_partial (es : List EntryExpr) (ss : List String) (h : EntryNames es ss)
    (hc : ∀ e ∈ es, isCallEntry e = false) :
    ∃ vs, sectionOfEntries es = .ok (ss.map some, vs) ∧ pathNames vs = .ok (ss.map some) := by
  refine ⟨_, Nm.section_run h, ?_⟩
  unfold pathNames
  rw [Nm.eachView_kept _ (fun e s => if isCallEntry e then some "DataPipeline" else some s)
    (fun e s _ => Nm.pathName_kept e s) h]
  simp only [Except.map, Except.ok.injEq]
  induction h with
  | nil => rfl
  | cons h _ ih =>
    rw [List.zipWith_cons_cons, hc _ List.mem_cons_self, ih (fun e he => hc e (List.mem_cons_of_mem _ he))]
    rfl

/-- C97 fails when the section is used: the runner looks for every pipeline under the name `DataPipeline`, so that
it finds none of them if none is called so. -/
theorem C97_section_violated (es : List EntryExpr) (ss : List String) (h : EntryNames es ss) (hd : "DataPipeline" ∉ ss)
    (i : Nat) (e : EntryExpr) (hi : es[i]? = some e) (hc : isCallEntry e = true) :
    ∃ names vs paths x, sectionOfEntries es = .ok (names, vs) ∧ pathNames vs = .ok paths ∧ paths[i]? = some x ∧
      findView names x = .error .attributeError := by
  refine ⟨_, _, List.zipWith (fun e s => if isCallEntry e then some "DataPipeline" else some s) es ss, some "DataPipeline",
    Nm.section_run h, ?_, ?_, ?_⟩
  · unfold pathNames
    rw [Nm.eachView_kept _ (fun e s => if isCallEntry e then some "DataPipeline" else some s)
      (fun e s _ => Nm.pathName_kept e s) h]
    rfl
  · clear hd
    induction h generalizing i with
    | nil => cases hi
    | cons h _ ih =>
      cases i with
      | zero =>
        cases hi
        rw [List.zipWith_cons_cons, hc]
        rfl
      | succ i => exact ih i hi
  · refine Nm.findView_missing ?_
    intro hm
    obtain ⟨s', hs', he⟩ := List.mem_map.1 hm
    exact hd (Option.some.inj he ▸ hs')

/-- C97: with a pipeline that is called so, all others are taken for it. -/
theorem C97_other_violated (es : List EntryExpr) (ss : List String) (h : EntryNames es ss) (hn : ss.Nodup)
    (i j : Nat) (e : EntryExpr) (s : String) (hi : es[i]? = some e) (hc : isCallEntry e = true) (hs : ss[i]? = some s)
    (hj : ss[j]? = some "DataPipeline") (hij : i ≠ j) :
    ∃ names vs paths x, sectionOfEntries es = .ok (names, vs) ∧ pathNames vs = .ok paths ∧ paths[i]? = some x ∧
      findView names x = .ok j ∧ findView names (some s) = .ok i ∧ i ≠ j := by
  obtain ⟨names, vs, h1, h2, -⟩ := C97_found es ss h hn
  refine ⟨names, vs, List.zipWith (fun e s => if isCallEntry e then some "DataPipeline" else some s) es ss, some "DataPipeline",
    h1, ?_, ?_, h2 j _ hj, h2 i s hs, hij⟩
  · rw [Nm.section_run h] at h1
    cases h1
    unfold pathNames
    rw [Nm.eachView_kept _ (fun e s => if isCallEntry e then some "DataPipeline" else some s)
      (fun e s _ => Nm.pathName_kept e s) h]
    rfl
  · rw [List.getElem?_zipWith, hi, hs]
    simp only [hc, if_true]

/-- C97: what the name is depends on whether it was asked for before. -/
theorem C97_asked_violated (e : EntryExpr) (s : String) (h : EntryName e s) (hc : isCallEntry e = true)
    (hs : s ≠ "DataPipeline") :
    ∃ v, EntryView.getOutputName ⟨e, none, none⟩ = (.ok (some "DataPipeline"), v) ∧
      EntryView.getOutputName v = (.ok (some s), v) ∧ some s ≠ some "DataPipeline" := by
  refine ⟨_, ?_, Nm.getOutputName_kept h, fun h' => hs (Option.some.inj h')⟩
  rw [Nm.getOutputName_first h, hc]
  rfl

/-- C97: no section with the class itself, or with a call without a `name`, can be made. -/
theorem C97_unnamed_violated (before after : List EntryExpr) (ss : List String) (e : EntryExpr) (h : EntryNames before ss)
    (he : externalName e = .ok (some "DataPipeline")) (hk : kwNamed "name" e = []) :
    sectionOfEntries (before ++ e :: after) = .error .keyError := by
  unfold sectionOfEntries
  have : eachView (EntryView.publicName true) ((before ++ e :: after).map (fun e => ⟨e, none, none⟩)) = .error .keyError := by
    induction h with
    | nil =>
      rw [List.nil_append, List.map_cons, eachView]
      have hset : EntryView.setName ⟨e, none, none⟩ = (.error .keyError, ⟨e, none, none⟩) := by
        unfold EntryView.setName
        rw [M.bind_ok (M.get_run _)]
        simp only [he, hk]
        rfl
      have hname : EntryView.getName ⟨e, none, none⟩ = (.error .keyError, ⟨e, none, none⟩) := by
        unfold EntryView.getName
        rw [M.bind_ok (M.get_run _)]
        simp only
        rw [M.bind_error hset]
      have hout : EntryView.getOutputName ⟨e, none, none⟩ = (.error .keyError, ⟨e, none, none⟩) := by
        unfold EntryView.getOutputName
        rw [M.bind_ok (M.get_run _)]
        exact hname
      have hhas : EntryView.has EntryView.getOutputName ⟨e, none, none⟩ = (.error .keyError, ⟨e, none, none⟩) := by
        unfold EntryView.has M.tryCatch
        rw [M.bind_error hout]
        rfl
      have : EntryView.publicName true ⟨e, none, none⟩ = (.error .keyError, ⟨e, none, none⟩) := by
        unfold EntryView.publicName
        rw [if_pos rfl, M.bind_error hhas]
      rw [this]
    | cons h _ ih =>
      rw [List.cons_append, List.map_cons, eachView, Nm.publicName_first h, ih]
  rw [this]

/-- C97: no section with a pipeline whose `name` is no string in quotes can be made either. -/
theorem C97_computed_violated (before after : List EntryExpr) (ss : List String) (e x : EntryExpr) (h : EntryNames before ss)
    (he : externalName e = .ok (some "DataPipeline")) (hk : (kwNamed "name" e).getLast? = some x) (hx : ∀ s, x ≠ .str s) :
    sectionOfEntries (before ++ e :: after) = .error .valueError := by
  unfold sectionOfEntries
  have : eachView (EntryView.publicName true) ((before ++ e :: after).map (fun e => ⟨e, none, none⟩)) = .error .valueError := by
    induction h with
    | nil =>
      rw [List.nil_append, List.map_cons, eachView]
      have hset : EntryView.setName ⟨e, none, none⟩ = (.error .attributeError, ⟨e, none, none⟩) := by
        unfold EntryView.setName
        rw [M.bind_ok (M.get_run _)]
        simp only [he, hk]
        cases x with
        | str s => exact absurd rfl (hx s)
        | _ => rfl
      have hname : EntryView.getName ⟨e, none, none⟩ = (.error .attributeError, ⟨e, none, none⟩) := by
        unfold EntryView.getName
        rw [M.bind_ok (M.get_run _)]
        simp only
        rw [M.bind_error hset]
      have hout : EntryView.getOutputName ⟨e, none, none⟩ = (.error .attributeError, ⟨e, none, none⟩) := by
        unfold EntryView.getOutputName
        rw [M.bind_ok (M.get_run _)]
        exact hname
      have hno : ∀ get : EV (Option String), get ⟨e, none, none⟩ = (.error .attributeError, ⟨e, none, none⟩) →
          EntryView.has get ⟨e, none, none⟩ = (.ok false, ⟨e, none, none⟩) := by
        intro get hget
        unfold EntryView.has M.tryCatch
        rw [M.bind_error hget]
        rfl
      have : EntryView.publicName true ⟨e, none, none⟩ = (.error .valueError, ⟨e, none, none⟩) := by
        unfold EntryView.publicName
        rw [if_pos rfl, M.bind_ok (hno _ hout)]
        simp only [Bool.false_eq_true, if_false]
        show (EntryView.has EntryView.getName >>= _) _ = _
        rw [M.bind_ok (hno _ hname)]
        rfl
      rw [this]
    | cons h _ ih =>
      rw [List.cons_append, List.map_cons, eachView, Nm.publicName_first h, ih]
  rw [this]

/-- C97: an entry in which there is no name is registered, without a name, and no config file can be made for it. -/
theorem C97_nameless_violated (e : EntryExpr) (he : externalName e = .ok none) :
    ∃ vs, sectionOfEntries [e] = .ok ([none], vs) ∧ eachView viewFile vs = .error .typeError := by
  have hset : EntryView.setName ⟨e, none, none⟩ = (.ok (), ⟨e, some none, none⟩) := by
    unfold EntryView.setName
    rw [M.bind_ok (M.get_run _)]
    simp only [he]
    rfl
  have hfirst : EntryView.getOutputName ⟨e, none, none⟩ = (.ok none, ⟨e, some none, none⟩) := by
    unfold EntryView.getOutputName
    rw [M.bind_ok (M.get_run _)]
    show EntryView.getName _ = _
    unfold EntryView.getName
    rw [M.bind_ok (M.get_run _)]
    simp only
    rw [M.bind_ok hset]
    rfl
  have hkept : EntryView.getOutputName ⟨e, some none, none⟩ = (.ok none, ⟨e, some none, none⟩) := rfl
  have h1 : EntryView.publicName true ⟨e, none, none⟩ = (.ok none, ⟨e, some none, none⟩) := by
    unfold EntryView.publicName
    rw [if_pos rfl, M.bind_ok (Nm.has_ok hfirst)]
    exact hkept
  have h2 : EntryView.publicName true ⟨e, some none, none⟩ = (.ok none, ⟨e, some none, none⟩) := by
    unfold EntryView.publicName
    rw [if_pos rfl, M.bind_ok (Nm.has_ok hkept)]
    exact hkept
  refine ⟨[⟨e, some none, none⟩], ?_, ?_⟩
  · unfold sectionOfEntries
    simp only [List.map_cons, List.map_nil, eachView, h1, h2]
  · simp only [eachView]
    have : viewFile ⟨e, some none, none⟩ = (.error .typeError, ⟨e, some none, none⟩) := by
      unfold viewFile
      rw [M.bind_ok hkept]
      rfl
    rw [this]

/-- C97: a section with an item called `output_name` is not registered under its own name. -/
theorem C97_output_violated (name : String) (es : List EntryExpr) (ss : List String) (h : EntryNames es ss) (hn : ss.Nodup)
    (i : Nat) (hi : ss[i]? = some "output_name") :
    ∃ names vs, sectionOfEntries es = .ok (names, vs) ∧ sectionPublicName name names = .inl i := by
  obtain ⟨names, vs, h1, h2, -⟩ := C97_found es ss h hn
  refine ⟨names, vs, h1, ?_⟩
  unfold sectionPublicName
  rw [h2 i _ hi]

/-- C97: all other sections are. -/
theorem C97_section_name (name : String) (es : List EntryExpr) (ss : List String) (h : EntryNames es ss)
    (hn : "output_name" ∉ ss) :
    ∃ names vs, sectionOfEntries es = .ok (names, vs) ∧ sectionPublicName name names = .inr name := by
  refine ⟨_, _, Nm.section_run h, ?_⟩
  unfold sectionPublicName
  rw [Nm.findView_missing]
  intro hm
  obtain ⟨s', hs', he⟩ := List.mem_map.1 hm
  exact hn (Option.some.inj he ▸ hs')

/-! ### Examples -/

/-- `[f, DataPipeline(name='a'), DataPipeline(x='1', name='b')]` -/
def pipelineEntries : List EntryExpr :=
  [.name "f", .call (.name "DataPipeline") [] [("name", .str "a")],
   .call (.name "DataPipeline") [] [("x", .str "1"), ("name", .str "b")]]

/-- Non-vacuity of C97. -/
example : EntryNames pipelineEntries ["f", "a", "b"] ∧ ["f", "a", "b"].Nodup ∧ "DataPipeline" ∉ ["f", "a", "b"] :=
  ⟨.cons (.plain (by decide)) (.cons (.pipeline (args := []) (kws := [("name", "a")]) (by decide) (by decide))
    (.cons (.pipeline (args := []) (kws := [("x", "1"), ("name", "b")]) (by decide) (by decide)) .nil)), by decide, by decide⟩

/-- Non-vacuity of `C97_unnamed_violated`. -/
example : externalName (.name "DataPipeline") = .ok (some "DataPipeline") ∧ kwNamed "name" (.name "DataPipeline") = [] := by
  constructor
  · exact Nm.externalName_name _
  · rw [kwNamed]

/-- Non-vacuity of `C97_computed_violated`: `DataPipeline(name='a' + 'b')`. -/
example : externalName (.call (.name "DataPipeline") [] [("name", .other [.str "a", .str "b"])]) = .ok (some "DataPipeline") ∧
    (kwNamed "name" (.call (.name "DataPipeline") [] [("name", .other [.str "a", .str "b"])])).getLast? =
      some (.other [.str "a", .str "b"]) := by
  constructor
  · simp [externalName, exprNames, exprsNames, kwargsNames]
  · simp [kwNamed, kwNamedAll, kwNamedIn]

/-- Non-vacuity of `C97_nameless_violated`. -/
example : externalName (.str "a") = .ok none := by simp [externalName, exprNames]

end Verif.Props
