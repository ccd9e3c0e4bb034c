import Verif.Model.SaveAs
import Verif.Props.FilesToy

/-
Property theorems about saving a config to a path: C89.
-/

namespace Verif.Props
open Verif.Py Verif.Model

/-- The path a config was read from. -/
def SavedConfig.readFrom (c : SavedConfig) : Option String := c.file.map (fun f => f.interfacePath)

/-- The files after the text, or the failure to make it. -/
def savedAs (fs : TextFiles) (path : String) : Except PyErr String → Except PyErr Unit × TextFiles
  | .ok text => (.ok (), fun q => if q = path then some text else fs q)
  | .error e => (.error e, fs)

theorem saveAs_load (lang : Lang) (f : ConfigFile) (hf : f.active = false) (fs : TextFiles) :
    f.load lang fs = match loadFile lang (fs f.interfacePath) with
      | .ok (l, _) => (.ok { f with loaded := some l }, fs)
      | .error e => (.error e, fs) := by
  unfold ConfigFile.load
  simp only [hf, Bool.false_eq_true, if_false]
  rfl

theorem saveAs_save (lang : Lang) (f : ConfigFile) (hf : f.active = false) (cfg : Cfg) (fs : TextFiles) :
    f.save lang cfg fs = match addAlways f.template f.name cfg with
      | .error e => (.error e, fs)
      | .ok (cfg, begins) => match f.loaded with
        | some l => (.ok (), fs.put f.interfacePath (createText lang l cfg begins))
        | none => match loadFile lang (fs f.interfacePath) with
          | .error e => (.error e, fs)
          | .ok (l, _) => (.ok (), fs.put f.interfacePath (createText lang l cfg begins)) := by
  unfold ConfigFile.save
  cases ha : addAlways f.template f.name cfg with
  | error e => rw [M.bind_error (M.liftE_run _ _)]
  | ok r =>
    obtain ⟨cfg', begins⟩ := r
    rw [M.bind_ok (M.liftE_run _ _)]
    simp only [hf, Bool.false_eq_true, if_false]
    rw [M.bind_ok (M.get_run _)]
    cases hl : f.loaded with
    | some l => rfl
    | none =>
      simp only
      cases hr : loadFile lang (fs f.interfacePath) with
      | error e => rfl
      | ok r => rfl

/-- C89 for configs that were not read from a file, exactly what happens: the file of that path is written, with what
scaffolding writes (C41), and no other. -/
theorem C89_new (lang : Lang) (t : Template) (c : SavedConfig) (hc : c.file = none) (path : String) (fs : TextFiles) :
    c.toFile lang false t path fs = savedAs fs path (toFile lang t c.name c.cfg (fs path)) := by
  unfold SavedConfig.toFile
  simp only [hc]
  rw [M.bind_ok (M.get_run _)]
  cases hp : fs path with
  | none =>
    simp only [Option.isSome_none, Bool.false_eq_true, if_false]
    rw [M.bind_ok (M.pure_run _ _), saveAs_save _ _ rfl]
    simp only [ConfigFile.new, hp]
    unfold toFile
    simp only [loadFile, readFile, defaultsFrom, bind, Except.bind, pure, Except.pure]
    cases addAlways t c.name c.cfg with
    | error e => rfl
    | ok r => rfl
  | some text =>
    simp only [Option.isSome_some, if_true]
    unfold toFile
    cases hl : loadFile lang (some text) with
    | error e =>
      have h : ConfigFile.load lang (ConfigFile.new false t path c.name) fs = (.error e, fs) := by
        rw [saveAs_load _ _ rfl]; simp only [ConfigFile.new, hp, hl]
      rw [M.bind_error h]
      rfl
    | ok r =>
      obtain ⟨l, d⟩ := r
      have h : ConfigFile.load lang (ConfigFile.new false t path c.name) fs =
          (.ok { ConfigFile.new false t path c.name with loaded := some l }, fs) := by
        rw [saveAs_load _ _ rfl]; simp only [ConfigFile.new, hp, hl]
      rw [M.bind_ok h, saveAs_save _ _ rfl]
      simp only [ConfigFile.new, bind, Except.bind, pure, Except.pure]
      cases addAlways t c.name c.cfg with
      | error e => rfl
      | ok r => rfl

/-- C89 for configs saved to the file they were read from, which is still there: it is written as it would be for any
other config, with what it has now. -/
theorem C89_same (lang : Lang) (active : Bool) (t : Template) (c : SavedConfig) (f : ConfigFile) (hc : c.file = some f)
    (hf : f.active = false) (fs : TextFiles) (hex : (fs f.interfacePath).isSome = true) :
    c.toFile lang active t f.interfacePath fs =
      savedAs fs f.interfacePath (toFile lang f.template f.name c.cfg (fs f.interfacePath)) := by
  unfold SavedConfig.toFile
  simp only [hc]
  rw [M.bind_ok (M.get_run _)]
  simp only [hex, if_true]
  unfold toFile
  cases hl : loadFile lang (fs f.interfacePath) with
  | error e =>
    have h : ConfigFile.load lang { f with filepath := f.interfacePath } fs = (.error e, fs) := by
      refine (saveAs_load lang { f with filepath := f.interfacePath } hf fs).trans ?_
      simp only [hl]
    rw [M.bind_error h]
    rfl
  | ok r =>
    obtain ⟨l, d⟩ := r
    have h : ConfigFile.load lang { f with filepath := f.interfacePath } fs =
        (.ok { f with filepath := f.interfacePath, loaded := some l }, fs) := by
      refine (saveAs_load lang { f with filepath := f.interfacePath } hf fs).trans ?_
      simp only [hl]
    rw [M.bind_ok h]
    refine (saveAs_save lang { f with filepath := f.interfacePath, loaded := some l } hf c.cfg fs).trans ?_
    simp only [bind, Except.bind, pure, Except.pure]
    cases addAlways f.template f.name c.cfg with
    | error e => rfl
    | ok r => rfl

theorem saveAs_load_spec (lang : Lang) (f : ConfigFile) (fs : TextFiles) :
    (f.load lang fs).2 = fs ∧ ∀ g, (f.load lang fs).1 = .ok g → g.interfacePath = f.interfacePath ∧ g.active = f.active := by
  unfold ConfigFile.load
  split
  · exact ⟨rfl, by intro g h; cases h; exact ⟨rfl, rfl⟩⟩
  · exact ⟨rfl, by intro g h; cases h⟩

theorem saveAs_frame (lang : Lang) (f : ConfigFile) (cfg : Cfg) (fs : TextFiles) :
    (∀ q, q ≠ f.interfacePath → (f.save lang cfg fs).2 q = fs q) ∧
    ((f.save lang cfg fs).1 = .ok () → ((f.save lang cfg fs).2 f.interfacePath).isSome = true) ∧
    (∀ e, (f.save lang cfg fs).1 = .error e → (f.save lang cfg fs).2 = fs) := by
  cases hf : f.active with
  | true =>
    have : ∃ e, f.save lang cfg fs = (.error e, fs) := by
      unfold ConfigFile.save
      cases ha : addAlways f.template f.name cfg with
      | error e => exact ⟨e, by rw [M.bind_error (M.liftE_run _ _)]⟩
      | ok r => exact ⟨.typeError, by rw [M.bind_ok (M.liftE_run _ _)]; simp only [hf, if_true]; rfl⟩
    obtain ⟨e, he⟩ := this
    rw [he]
    exact ⟨fun _ _ => rfl, (by intro h; cases h), fun _ _ => rfl⟩
  | false =>
    rw [saveAs_save _ _ hf]
    have hput : ∀ text q, q ≠ f.interfacePath → fs.put f.interfacePath text q = fs q := by
      intro text q hq; simp [TextFiles.put, hq]
    cases addAlways f.template f.name cfg with
    | error e => exact ⟨fun _ _ => rfl, (by intro h; cases h), fun _ _ => rfl⟩
    | ok r =>
      simp only
      cases f.loaded with
      | some l => exact ⟨hput _, fun _ => by simp [TextFiles.put], by intro e h; cases h⟩
      | none =>
        simp only
        cases loadFile lang (fs f.interfacePath) with
        | error e => exact ⟨fun _ _ => rfl, (by intro h; cases h), fun _ _ => rfl⟩
        | ok r => exact ⟨hput _, fun _ => by simp [TextFiles.put], by intro e h; cases h⟩

/-- The path that is really written: that of the interface. -/
def savedTarget (c : SavedConfig) (path : String) : String := (SavedConfig.readFrom c).getD path

/-- C89, what is written in all cases: only the file the config was read from, or the given one if it was not read from
any; it exists after a success, and a failure changes nothing. -/
theorem C89_frame (lang : Lang) (active : Bool) (t : Template) (c : SavedConfig) (path : String) (fs : TextFiles) :
    (∀ q, q ≠ savedTarget c path → (c.toFile lang active t path fs).2 q = fs q) ∧
    ((c.toFile lang active t path fs).1 = .ok () → ((c.toFile lang active t path fs).2 (savedTarget c path)).isSome = true) ∧
    (∀ e, (c.toFile lang active t path fs).1 = .error e → (c.toFile lang active t path fs).2 = fs) := by
  have key : ∀ (out : ConfigFile), out.interfacePath = savedTarget c path →
      ∀ r, r = (do
        let fs ← M.get
        let output ← if (fs path).isSome then out.load lang else pure out
        output.save lang c.cfg : SM Unit) fs →
      (∀ q, q ≠ savedTarget c path → r.2 q = fs q) ∧ (r.1 = .ok () → (r.2 (savedTarget c path)).isSome = true) ∧
      (∀ e, r.1 = .error e → r.2 = fs) := by
    intro out hout r hr
    rw [M.bind_ok (M.get_run _)] at hr
    by_cases hp : (fs path).isSome = true
    · simp only [hp, if_true] at hr
      have hl := saveAs_load_spec lang out fs
      cases h1 : out.load lang fs with
      | mk res fs' =>
        rw [h1] at hl
        cases res with
        | error e =>
          rw [M.bind_error h1] at hr
          subst hr
          have : fs' = fs := hl.1
          subst this
          exact ⟨fun _ _ => rfl, (by intro h; cases h), fun _ _ => rfl⟩
        | ok g =>
          rw [M.bind_ok h1] at hr
          have h2 : fs' = fs := hl.1
          subst h2
          have h3 := saveAs_frame lang g c.cfg fs'
          rw [(hl.2 g rfl).1, hout] at h3
          subst hr
          exact h3
    · simp only [Bool.not_eq_true] at hp
      simp only [hp, Bool.false_eq_true, if_false] at hr
      rw [M.bind_ok (M.pure_run _ _)] at hr
      have h3 := saveAs_frame lang out c.cfg fs
      rw [hout] at h3
      subst hr
      exact h3
  unfold SavedConfig.toFile
  cases hc : c.file with
  | none =>
    simp only
    refine key _ ?_ _ rfl
    simp [savedTarget, SavedConfig.readFrom, hc, ConfigFile.new]
  | some f =>
    simp only
    refine key _ ?_ _ rfl
    simp [savedTarget, SavedConfig.readFrom, hc]

/-- C89 does not hold for configs that were read from another file: for all files, saving them leaves the file of the
given path as it is (missing if it was), and if it succeeds the file they were read from is written instead. -/
theorem C89_other_violated (lang : Lang) (t : Template) (a b name : String) (hab : a ≠ b) (fs : TextFiles)
    (c : SavedConfig) (hc : (SavedConfig.fromFile lang t a name fs).1 = .ok c) (active : Bool) (t' : Template)
    (hok : (c.toFile lang active t' b fs).1 = .ok ()) :
    (c.toFile lang active t' b fs).2 b = fs b ∧
      ∃ l cfg begins, readFile lang (fs a) = .ok l ∧ addAlways t name c.cfg = .ok (cfg, begins) ∧
        (c.toFile lang active t' b fs).2 = fun q => if q = a then some (createText lang l cfg begins) else fs q := by
  have hread : ∃ l, readFile lang (fs a) = .ok l ∧ c.name = name ∧
      c.file = some { ConfigFile.new false t a name with loaded := some l } := by
    unfold SavedConfig.fromFile at hc
    cases hr : readFile lang (fs a) with
    | error e => simp only [hr] at hc; cases hc
    | ok l =>
      simp only [hr] at hc
      cases hd : defaultsFrom l.assigns .empty .empty with
      | error e => simp only [hd] at hc; cases hc
      | ok r =>
        simp only [hd] at hc
        cases hc
        exact ⟨l, rfl, rfl, rfl⟩
  obtain ⟨l, hl, hn, hfile⟩ := hread
  have htgt : savedTarget c b = a := by simp [savedTarget, SavedConfig.readFrom, hfile, ConfigFile.new]
  refine ⟨(C89_frame lang active t' c b fs).1 b (by rw [htgt]; exact fun h => hab h.symm), l, ?_⟩
  revert hok
  unfold SavedConfig.toFile
  simp only [hfile]
  rw [M.bind_ok (M.get_run _)]
  have hsave : ∀ g : ConfigFile, g.active = false → g.loaded = some l → g.interfacePath = a → g.template = t →
      g.name = name → (g.save lang c.cfg fs).1 = .ok () →
      ∃ cfg begins, readFile lang (fs a) = .ok l ∧ addAlways t name c.cfg = .ok (cfg, begins) ∧
        (g.save lang c.cfg fs).2 = fs.put a (createText lang l cfg begins) := by
    intro g h1 h2 h3 h4 h5 hok
    rw [saveAs_save _ _ h1, h2, h3, h4, h5] at hok ⊢
    cases ha : addAlways t name c.cfg with
    | error e => rw [ha] at hok; cases hok
    | ok r => exact ⟨r.1, r.2, hl, rfl, rfl⟩
  by_cases hp : (fs b).isSome = true
  · simp only [hp, if_true]
    intro hok
    have hload : (ConfigFile.load lang { ConfigFile.new false t a name with loaded := some l, filepath := b }) fs =
        (.ok { ConfigFile.new false t a name with loaded := some l, filepath := b }, fs) ∨
        ∃ e, (ConfigFile.load lang { ConfigFile.new false t a name with loaded := some l, filepath := b }) fs =
          (.error e, fs) := by
      rw [saveAs_load _ _ rfl]
      simp only [ConfigFile.new, loadFile, hl, bind, Except.bind, pure, Except.pure]
      cases defaultsFrom l.assigns .empty .empty with
      | error e => exact .inr ⟨e, rfl⟩
      | ok r => exact .inl rfl
    rcases hload with h | ⟨e, h⟩
    · rw [M.bind_ok h] at hok ⊢
      exact hsave _ rfl rfl rfl rfl rfl hok
    · rw [M.bind_error h] at hok
      cases hok
  · simp only [Bool.not_eq_true] at hp
    simp only [hp, Bool.false_eq_true, if_false]
    intro hok
    rw [M.bind_ok (M.pure_run _ _)] at hok ⊢
    exact hsave _ rfl rfl rfl rfl rfl hok

/-- C89 does not hold for the configs of the config manager: they cannot be saved at all, for any path. -/
theorem C89_active_violated (lang : Lang) (t : Template) (c : SavedConfig) (path : String) (fs : TextFiles)
    (hc : ∀ f, c.file = some f → f.active = true) :
    ∃ e, c.toFile lang true t path fs = (.error e, fs) := by
  have hfr := (C89_frame lang true t c path fs).2.2
  have hact : ∀ (g : ConfigFile), g.active = true → ∀ fs', (g.save lang c.cfg fs').1 ≠ .ok () := by
    intro g hg fs'
    unfold ConfigFile.save
    cases addAlways g.template g.name c.cfg with
    | error e => rw [M.bind_error (M.liftE_run _ _)]; intro h; cases h
    | ok r => rw [M.bind_ok (M.liftE_run _ _)]; simp only [hg, if_true]; intro h; cases h
  have hne : (c.toFile lang true t path fs).1 ≠ .ok () := by
    have key : ∀ (out : ConfigFile), out.active = true → ((do
        let fs ← M.get
        let output ← if (fs path).isSome then out.load lang else pure out
        output.save lang c.cfg : SM Unit) fs).1 ≠ .ok () := by
      intro out hout
      rw [M.bind_ok (M.get_run _)]
      by_cases hp : (fs path).isSome = true
      · simp only [hp, if_true]
        have hl := saveAs_load_spec lang out fs
        cases h1 : out.load lang fs with
        | mk res fs' =>
          rw [h1] at hl
          cases res with
          | error e => rw [M.bind_error h1]; intro h; cases h
          | ok g => rw [M.bind_ok h1]; exact hact g (by rw [(hl.2 g rfl).2, hout]) fs'
      · simp only [Bool.not_eq_true] at hp
        simp only [hp, Bool.false_eq_true, if_false]
        rw [M.bind_ok (M.pure_run _ _)]
        exact hact out hout fs
    unfold SavedConfig.toFile
    cases hcf : c.file with
    | none => exact key _ rfl
    | some f => exact key _ (hc f hcf)
  cases hr : c.toFile lang true t path fs with
  | mk res fs' =>
    rw [hr] at hfr hne
    cases res with
    | ok u => exact absurd rfl hne
    | error e => exact ⟨e, Prod.ext rfl (hfr e rfl)⟩

/-- A config read from the file `a = 1`. -/
def demoSaved : Except PyErr SavedConfig :=
  (SavedConfig.fromFile toy functionTemplate "a.py" "a" (fun q => if q = "a.py" then some "x = 1" else none)).1

/-- It is read, and saving it as `b.py` succeeds, without making `b.py`. -/
example : ∃ c, demoSaved = .ok c ∧
    (c.toFile toy false functionTemplate "b.py" (fun q => if q = "a.py" then some "x = 1" else none)).1 = .ok () ∧
    (c.toFile toy false functionTemplate "b.py" (fun q => if q = "a.py" then some "x = 1" else none)).2 "b.py" = none := by
  refine ⟨_, rfl, rfl, rfl⟩

end Verif.Props
