import Verif.Model.Session
import Verif.Props.Create
import Verif.Props.Tree
import Verif.Props.Runner
import Verif.Props.SectionReset

/-
Property theorems about a manager as a whole: C79 (after loading), C80 (after `create`).
-/

namespace Verif.Props
open Verif.Py Verif.Model

variable {V L : Type}

/-! ## C79 -/

/-! ### Specification -/

/-- The value of a key in the active configuration of an item whose file gives `v`: nothing if the file gives nothing, otherwise
that of the innermost section around it with the key, or its own. -/
def activeValue (s : CM V) (p : List String) (v : Dict String V) (x : String) : Option V :=
  if v.items.isEmpty = true then none else lastDefining x ([v] ++ enclosingValues s p ++ [s.localConf.values])

/-- The item at the path is `k`, and is used with what the file with the text gives: getting it is an error if executing the text
is one; otherwise it gives an object made from `k` with the active value for each parameter, which for functions never fails. -/
structure Usable (s : RS V) (eval : EvalText V) (p : List String) (k : Callable V) (t : String) : Prop where
  item : RunnerItem s p k
  error : ∀ e, eval (.item p) t = .error e → (RM.get p s).1 = .error e
  object : ∀ v o, eval (.item p) t = .ok v → (RM.get p s).1 = .ok (.obj o) →
    o.callable = k ∧ ∀ x, Found k x → bound o x = activeValue s.cm p v x
  function : ∀ v, eval (.item p) t = .ok v → k.kind = .func → ∃ o, (RM.get p s).1 = .ok (.obj o)

/-- A folder that loading passes over. -/
def Hidden (x : String) : Prop := x.startsWith "_" = true ∨ x.startsWith "." = true

/-! ### Lemmas -/

theorem hidden_iff (x : String) : ignoredFolder x = true ↔ Hidden x := by
  unfold ignoredFolder Hidden
  rw [Bool.or_eq_true]

theorem not_hidden_iff (x : String) : ignoredFolder x = false ↔ ¬Hidden x := by
  rw [← hidden_iff]
  cases ignoredFolder x <;> simp

/-- What is found in a collection has its file below the folder of the collection. -/
theorem walk_itemFiles {c : Callable V} (p : List String) (hp : p ≠ []) : ∀ (res : List String) (b : Bool)
    (items : List (String × Reg V)) (q : List String), (Reg.coll b items).walk res p = .ok (.item c) →
    ∃ b' name, p.getLast? = some name ∧
      (⟨FileLoc.place q (.item p), b', name, c⟩ : ItemFile V) ∈ itemFiles b q items := by
  induction p with
  | nil => exact absurd rfl hp
  | cons x p ih =>
    intro res b items q h
    rw [Reg.walk] at h
    cases ha : Reg.attr res (.coll b items) x with
    | error e => rw [ha] at h; cases h
    | ok n =>
      rw [ha] at h
      simp only at h
      cases p with
      | nil =>
        rw [Reg.walk] at h
        cases h
        rcases Reg.attr_coll ha with h' | h'
        · cases h'
        · refine ⟨b, x, rfl, ?_⟩
          have := mem_itemFiles (b := b) q h'
          simpa [FileLoc.place] using this
      | cons y p =>
        rcases Reg.attr_coll ha with h' | h'
        · subst h'
          rw [Reg.walk] at h
          simp only [Reg.attr] at h
          cases h
        · cases n with
          | item c' => rw [Reg.walk] at h; simp only [Reg.attr] at h; cases h
          | other => rw [Reg.walk] at h; simp only [Reg.attr] at h; cases h
          | coll b1 sub =>
            obtain ⟨b', name, hl, hm⟩ := ih (by simp) _ b1 sub (q ++ [x]) h
            refine ⟨b', name, by rw [List.getLast?_cons_cons]; exact hl, ?_⟩
            have hpl : FileLoc.place q (.item (x :: y :: p)) = FileLoc.place (q ++ [x]) (.item (y :: p)) := by
              simp [FileLoc.place]
            rw [hpl]
            clear ha h
            induction items with
            | nil => cases h'
            | cons e rest ih' =>
              obtain ⟨z, n⟩ := e
              rcases List.mem_cons.1 h' with h'' | h''
              · cases h''
                rw [itemFiles]
                exact List.mem_append_left _ hm
              · cases n with
                | coll _ _ => rw [itemFiles]; exact List.mem_append_right _ (ih' h'')
                | item _ => rw [itemFiles]; exact List.mem_cons_of_mem _ (ih' h'')
                | other => rw [itemFiles]; exact ih' h''

theorem lookup_itemFiles {r : Registry V} {c : Callable V} {p : List String} (h : r.lookup p = .ok (.item c))
    (hs : ∀ e ∈ r.specific, ∃ items, e.2 = .coll true items) (hg : ∃ items, r.general = .coll false items) (q : List String) :
    ∃ b name, p.getLast? = some name ∧
      (⟨FileLoc.place q (.item p), b, name, c⟩ : ItemFile V) ∈ itemFiles false q (Registry.entries r) := by
  obtain ⟨gi, hg⟩ := hg
  have he : Registry.entries r = r.specific ++ gi := by
    unfold Registry.entries
    rw [hg]
  rw [he, itemFiles_append]
  cases p with
  | nil => cases h
  | cons x rest =>
    rw [Registry.lookup] at h
    cases hf : r.specific.find? (fun e => e.1 = x) with
    | none =>
      rw [hf, hg] at h
      simp only at h
      cases hw : (Reg.coll false gi).walk registrarReserved (x :: rest) with
      | error e => rw [hw] at h; cases h
      | ok n =>
        rw [hw] at h
        have hn : n = .item c := by
          cases n with
          | other => cases h
          | item _ => cases h; rfl
          | coll _ _ => cases h
        subst hn
        obtain ⟨b, name, h1, h2⟩ := walk_itemFiles (x :: rest) (by simp) _ _ _ q hw
        exact ⟨b, name, h1, List.mem_append_right _ h2⟩
    | some e =>
      obtain ⟨y, reg⟩ := e
      rw [hf] at h
      have hy : y = x := by simpa using List.find?_some hf
      subst hy
      have hm := List.mem_of_find?_eq_some hf
      obtain ⟨items, hi⟩ := hs _ hm
      have hi : reg = .coll true items := hi
      subst hi
      simp only at h
      cases rest with
      | nil => cases h
      | cons z rest =>
        simp only at h
        obtain ⟨b, name, h1, h2⟩ := walk_itemFiles (z :: rest) (by simp) _ _ _ (q ++ [y]) h
        refine ⟨b, name, by rw [List.getLast?_cons_cons]; exact h1, List.mem_append_left _ ?_⟩
        have hpl : FileLoc.place q (.item (y :: z :: rest)) = FileLoc.place (q ++ [y]) (.item (z :: rest)) := by
          simp [FileLoc.place]
        rw [hpl]
        clear hf h he hs
        generalize r.specific = l at hm
        induction l with
        | nil => cases hm
        | cons e l ih =>
          obtain ⟨w, n⟩ := e
          rcases List.mem_cons.1 hm with h'' | h''
          · cases h''
            rw [itemFiles]
            exact List.mem_append_left _ h2
          · cases n with
            | coll _ _ => rw [itemFiles]; exact List.mem_append_right _ (ih h'')
            | item _ => rw [itemFiles]; exact List.mem_cons_of_mem _ (ih h'')
            | other => rw [itemFiles]; exact ih h''

/-- A file in folders that are not ignored is in the tree. -/
theorem treeOf_item {fs : Fs} (hc : Fs.Closed fs) (p : List String) (hne : p ≠ []) : ∀ (q : List String) (tr : DirTree),
    TreeOf fs q tr → (∀ x ∈ p.dropLast, ignoredFolder x = false) → p.getLast? ≠ some "section" →
    (∃ t, fs (FileLoc.place q (.item p)) = some (.file t)) → fs (q ++ p) ≠ some .dir → tr.HasItem p := by
  induction p with
  | nil => exact absurd rfl hne
  | cons x p ih =>
    intro q tr ht hi hs hf hd
    cases ht with
    | mk sect items folders once below =>
      cases p with
      | nil =>
        refine .here ((items x).2 ⟨fun h => hs (by rw [h]; rfl), ?_⟩) ?_
        · simpa [FileLoc.place] using hf
        · intro hx
          exact hd ((folders x).1 hx).2
      | cons y p =>
        have hpl : FileLoc.place q (.item (x :: y :: p)) = FileLoc.place (q ++ [x]) (.item (y :: p)) := by
          simp [FileLoc.place]
        rw [hpl] at hf
        have hx : fs (q ++ [x]) = some .dir := by
          obtain ⟨t, hf⟩ := hf
          refine hc.below (q ++ [x]) (r := (y :: p).dropLast ++ [(y :: p).getLast?.getD "" ++ ".py"]) (by simp) ?_
          rw [← List.append_assoc]
          simp only [FileLoc.place] at hf
          rw [hf]
          simp
        have hmem := (folders x).2 ⟨hi x (by simp), hx⟩
        obtain ⟨e, he, e1⟩ := List.mem_map.1 hmem
        obtain ⟨z, t⟩ := e
        have e1 : z = x := e1
        subst e1
        refine .there he once (ih (by simp) (q ++ [z]) t (below z t he) ?_ ?_ hf ?_)
        · intro w hw
          exact hi w (by simp only [List.dropLast_cons_cons]; exact List.mem_cons_of_mem _ hw)
        · rw [List.getLast?_cons_cons] at hs
          exact hs
        · simpa using hd

theorem construct_callable {id : Nat} {k : Callable V} {d : Dict String V} {o : Obj V}
    (h : RM.construct id k d = .ok o) : o.callable = k := by
  unfold RM.construct at h
  cases hk : k.kind with
  | func => rw [hk] at h; simp only at h; split at h <;> (try cases h); split at h <;> cases h; rfl
  | klass => rw [hk] at h; simp only at h; split at h <;> (try cases h); split at h <;> cases h; rfl
  | specific => rw [hk] at h; exact (RM.applyConfig_same h).1.callable

/-- A first `get` makes its object from the item. -/
theorem get_callable [BEq V] {s : RS V} {p : List String} {k : Callable V} (hl : s.reg.lookup p = .ok (.item k))
    (hn : created s p = none) {o : Obj V} (ho : (RM.get p s).1 = .ok (.obj o)) : o.callable = k := by
  rw [RM.get_item hl, M.bind_run] at ho
  have key : ∀ {d : Dict String V} {s' : RS V} {r : Reg V}, RM.funcAndConfig p s = (.ok (r, d), s') → r = .item k := by
    intro d s' r h
    obtain ⟨c', _, _, h3, _⟩ := RM.funcAndConfig_ok h
    rw [hl] at h3
    cases h3
    rfl
  have hfunc : ∀ {s' : RS V}, RM.getOneFunc p s = (.ok o, s') → o.callable = k := by
    intro s' h
    unfold RM.getOneFunc at h
    rw [M.bind_ok (M.get_run s), show s.objs.get? p = none from hn] at h
    simp only at h
    rw [M.bind_run] at h
    cases hfc : RM.funcAndConfig p s with
    | mk r s1 =>
      rw [hfc] at h
      cases r with
      | error e => simp only at h; cases h
      | ok r =>
        obtain ⟨rg, d⟩ := r
        cases key hfc
        simp only at h
        rw [M.bind_ok (M.get_run s1)] at h
        have h' := congrArg Prod.fst h
        cases h'
        rfl
  have hobj : ∀ {s' : RS V}, RM.getOneObj p s = (.ok o, s') → o.callable = k := by
    intro s' h
    unfold RM.getOneObj at h
    rw [M.bind_ok (M.get_run s), show s.objs.get? p = none from hn] at h
    simp only at h
    have hlk : RM.lookup p s = (.ok (.item k), s) := by
      show (s.reg.lookup p, s) = _
      rw [hl]
    rw [M.bind_ok hlk, M.bind_run] at h
    cases hfc : RM.funcAndConfig p s with
    | mk r s1 =>
      rw [hfc] at h
      cases r with
      | error e => simp only at h; cases h
      | ok r =>
        obtain ⟨rg, d⟩ := r
        cases key hfc
        simp only at h
        rw [M.bind_ok (M.get_run s1), M.bind_run, M.liftE_run] at h
        cases hcs : RM.construct s1.nextId k d with
        | error e => rw [hcs] at h; simp only at h; cases h
        | ok o1 =>
          rw [hcs] at h
          have h' := congrArg Prod.fst h
          cases h'
          exact construct_callable hcs
  cases hg : RM.getItem p k s with
  | mk r s' =>
    rw [hg] at ho
    cases r with
    | error e => cases ho
    | ok o' =>
      have e : o' = o := by
        have := congrArg (fun x => x) ho
        cases this
        rfl
      subst e
      unfold RM.getItem at hg
      cases hk : k.kind with
      | func => rw [hk] at hg; exact hfunc hg
      | klass => rw [hk] at hg; exact hobj hg
      | specific => rw [hk] at hg; exact hobj hg

/-- A first `get` raises what finding the config raises. -/
theorem get_raises [BEq V] {s : RS V} {p : List String} {k : Callable V} (hl : s.reg.lookup p = .ok (.item k))
    (hn : created s p = none) {e : PyErr} (hg : (CMM.get p s.cm).1 = .error e) : (RM.get p s).1 = .error e := by
  have hfc : (RM.funcAndConfig p s).1 = .error e := by
    unfold RM.funcAndConfig
    have : (RM.getConfig p s).1 = .error e := by
      unfold RM.getConfig
      rw [M.bind_run]
      unfold RM.liftC
      simp only [hg]
    rw [M.bind_run]
    cases hgc : RM.getConfig p s with
    | mk r s' =>
      rw [hgc] at this
      have this : r = .error e := this
      subst this
      rfl
  have hlk : RM.lookup p s = (.ok (.item k), s) := by
    show (s.reg.lookup p, s) = _
    rw [hl]
  have hn' : s.objs.get? p = none := hn
  have h1 : (RM.getOneFunc p s).1 = .error e := by
    unfold RM.getOneFunc
    rw [M.bind_ok (M.get_run s), hn']
    simp only
    rw [M.bind_run]
    cases hf : RM.funcAndConfig p s with
    | mk r s' =>
      rw [hf] at hfc
      have hfc : r = .error e := hfc
      subst hfc
      rfl
  have h2 : (RM.getOneObj p s).1 = .error e := by
    unfold RM.getOneObj
    rw [M.bind_ok (M.get_run s), hn']
    simp only
    rw [M.bind_ok hlk, M.bind_run]
    cases hf : RM.funcAndConfig p s with
    | mk r s' =>
      rw [hf] at hfc
      have hfc : r = .error e := hfc
      subst hfc
      rfl
  have h3 : (RM.getItem p k s).1 = .error e := by
    unfold RM.getItem
    cases k.kind
    · exact h1
    · exact h2
    · exact h2
  rw [RM.get_item hl, M.bind_run]
  cases hgi : RM.getItem p k s with
  | mk r s' =>
    rw [hgi] at h3
    have h3 : r = .error e := h3
    subst h3
    rfl

/-- An item with this file can be used. -/
theorem usable_of [BEq V] {s : RS V} (hs : s.cm.Reachable) {eval : EvalText V} {p : List String} {k : Callable V} {t : String}
    (hi : RunnerItem s p k) (hn : created s p = none)
    (hown : ownConfig s.cm p = (eval (.item p) t).map (Conf.ofFile (.item p))) : Usable s eval p k t := by
  have hit := hi.config.isItem
  refine ⟨hi, ?_, ?_, ?_⟩
  · intro e he
    have hown : ownConfig s.cm p = .error e := by rw [hown, he]; rfl
    have hg := C10_unreadable_file s.cm p hi.config e hown
    exact get_raises hi.registered hn hg
  · intro v o hv ho
    have hown' : ownConfig s.cm p = .ok (Conf.ofFile (.item p) v) := by rw [hown, hv]; rfl
    have hown'' := hown'
    rw [ownConfig_eq hi.config] at hown''
    obtain ⟨g1, _⟩ := CMM.get_of_own hit hown''
    refine ⟨?_, ?_⟩
    · have hob := get_callable hi.registered hn ho
      exact hob
    · intro x hx
      rw [C19_configured_bound_partial s p k hi hn o ho _ g1 x hx]
      unfold activeValue
      by_cases he : v.items.isEmpty = true
      · rw [if_pos he]
        have : CMM.active s.cm.view p (Conf.ofFile (.item p) v) = Conf.ofFile (.item p) v := by
          refine active_empty ?_
          apply Dict.ext_items
          exact List.isEmpty_iff.1 he
        rw [this]
        show v.get? x = none
        have : v = Dict.empty := by
          apply Dict.ext_items
          exact List.isEmpty_iff.1 he
        rw [this]
        exact Dict.get?_empty x
      · rw [if_neg he]
        obtain ⟨c', h1, h2⟩ := C10_inheritance_order_partial s.cm hs p hi.config _ hown' (by
          intro h
          apply he
          have h : v = Dict.empty := h
          rw [h]
          rfl)
        rw [g1] at h1
        cases h1
        exact h2 x
  · intro v hv hf
    have hown' : ownConfig s.cm p = .ok (Conf.ofFile (.item p) v) := by rw [hown, hv]; rfl
    rw [ownConfig_eq hi.config] at hown'
    obtain ⟨_, _, h⟩ := RM.get_creates hit hi.registered hf hn hown'
    exact ⟨_, by rw [h]⟩

/-- What a load gives. -/
theorem loadProject_ok {env : FsEnv} {lang : DefLang V L} {text : ItemText V} {eval : EvalText V} {list : Fs → DirTree}
    {folder base : String} {classes : List ClassConfig} {fs fs' : Fs} {rs : RS V}
    (h : loadProject env lang text eval list folder base classes fs = (.ok rs, fs')) :
    createRegistrars env lang text folder base classes fs = (.ok rs.reg, fs') ∧
      CM.load (configFiles eval list (env.resolve base) fs') ((env.resolve base).getLast?.getD "") = .ok rs.cm ∧
      rs.objs = Dict.empty ∧ rs.nextId = 0 := by
  unfold loadProject at h
  rw [M.bind_run] at h
  cases hc : createRegistrars env lang text folder base classes fs with
  | mk r fs1 =>
    rw [hc] at h
    cases r with
    | error e => cases h
    | ok r =>
      simp only at h
      rw [M.bind_ok (M.get_run fs1), M.bind_run, M.liftE_run] at h
      cases hl : CM.load (configFiles eval list (env.resolve base) fs1) ((env.resolve base).getLast?.getD "") with
      | error e => rw [hl] at h; cases h
      | ok cm =>
        rw [hl] at h
        cases h
        exact ⟨rfl, hl, rfl, rfl⟩

/-- Something is at only finitely many paths. -/
def Fs.Finite (fs : Fs) : Prop := ∃ ps : List (List String), ∀ q, fs q ≠ none → q ∈ ps

theorem nodup_list (L : List String) : ∀ (P : String → Prop), (∀ x, P x → x ∈ L) → ∃ D : List String, D.Nodup ∧ ∀ x, x ∈ D ↔ P x := by
  induction L with
  | nil =>
    intro P h
    exact ⟨[], List.nodup_nil, fun x => ⟨fun h' => (by cases h'), fun hx => (by cases h x hx)⟩⟩
  | cons y L ih =>
    intro P h
    obtain ⟨D, h1, h2⟩ := ih (fun x => P x ∧ x ≠ y) (fun x hx => by
      rcases List.mem_cons.1 (h x hx.1) with rfl | h'
      · exact absurd rfl hx.2
      · exact h')
    by_cases hy : P y
    · refine ⟨y :: D, List.nodup_cons.2 ⟨fun hm => ((h2 y).1 hm).2 rfl, h1⟩, fun x => ?_⟩
      rw [List.mem_cons, h2]
      constructor
      · rintro (rfl | h)
        · exact hy
        · exact h.1
      · intro hx
        by_cases e : x = y
        · exact .inl e
        · exact .inr ⟨hx, e⟩
    · refine ⟨D, h1, fun x => ?_⟩
      rw [h2]
      exact ⟨And.left, fun hx => ⟨hx, by rintro rfl; exact hy hx⟩⟩

theorem choose_dirs (P : String → DirTree → Prop) (D : List String) (h : ∀ x ∈ D, ∃ t, P x t) :
    ∃ dirs : List (String × DirTree), dirs.map Prod.fst = D ∧ ∀ x t, (x, t) ∈ dirs → P x t := by
  induction D with
  | nil => exact ⟨[], rfl, fun _ _ h => (by cases h)⟩
  | cons y D ih =>
    obtain ⟨dirs, h1, h2⟩ := ih (fun x hx => h x (List.mem_cons_of_mem _ hx))
    obtain ⟨t, ht⟩ := h y List.mem_cons_self
    refine ⟨(y, t) :: dirs, by rw [List.map_cons, h1], fun x t' hx => ?_⟩
    rcases List.mem_cons.1 hx with hx | hx
    · cases hx; exact ht
    · exact h2 x t' hx

/-- There is a listing of a folder. -/
theorem treeOf_exists {fs : Fs} (hf : Fs.Finite fs) (q : List String) : ∃ t, TreeOf fs q t := by
  obtain ⟨ps, hps⟩ := hf
  have hlen : ∃ n, ∀ r ∈ ps, r.length ≤ n := by
    clear hps
    induction ps with
    | nil => exact ⟨0, fun _ h => (by cases h)⟩
    | cons r ps ih =>
      obtain ⟨n, hn⟩ := ih
      refine ⟨r.length + n, fun r' hr' => ?_⟩
      rcases List.mem_cons.1 hr' with rfl | h
      · omega
      · have := hn _ h; omega
  obtain ⟨n, hn⟩ := hlen
  have key : ∀ (m : Nat) (q : List String), n ≤ q.length + m → ∃ t, TreeOf fs q t := by
    intro m
    induction m with
    | zero =>
      intro q hq
      have none : ∀ x, fs (q ++ [x]) = .none := by
        intro x
        cases h : fs (q ++ [x]) with
        | none => rfl
        | some n' =>
          have := hn _ (hps (q ++ [x]) (by rw [h]; simp))
          simp at this
          omega
      refine ⟨.mk false [] [], .mk (by simp [none]) (by simp [none]) (by simp [none]) (by simp) (by simp)⟩
    | succ m ih =>
      intro q hq
      have hlast : ∀ x, fs (q ++ [x]) ≠ none → x ∈ ps.map (fun r => r.getLast?.getD "") := by
        intro x hx
        exact List.mem_map.2 ⟨_, hps _ hx, by simp⟩
      obtain ⟨F, _, hF⟩ := nodup_list (ps.map (fun r => String.ofList ((r.getLast?.getD "").toList.dropLast.dropLast.dropLast)))
        (fun x => x ≠ "section" ∧ ∃ t, fs (q ++ [x ++ ".py"]) = some (.file t)) (by
          rintro x ⟨_, t, h⟩
          refine List.mem_map.2 ⟨_, hps (q ++ [x ++ ".py"]) (by rw [h]; simp), ?_⟩
          have : (x ++ ".py").toList = x.toList ++ ['.'] ++ ['p'] ++ ['y'] := by
            rw [String.toList_append]
            simp
          rw [List.getLast?_concat, Option.getD_some, this, List.dropLast_concat, List.dropLast_concat, List.dropLast_concat]
          exact String.ofList_toList)
      obtain ⟨D, hD, hD'⟩ := nodup_list _ (fun x => ignoredFolder x = false ∧ fs (q ++ [x]) = some .dir)
        (fun x hx => hlast x (by rw [hx.2]; simp))
      obtain ⟨dirs, h1, h2⟩ := choose_dirs (fun x t => TreeOf fs (q ++ [x]) t) D (fun x _ => ih (q ++ [x]) (by simp; omega))
      refine ⟨.mk (Classical.propDecidable (∃ t, fs (q ++ ["section.py"]) = some (.file t))).decide F dirs,
        .mk (by simp) hF (by rw [h1]; exact hD') (by rw [h1]; exact hD) h2⟩
  exact key n q (by omega)

theorem finite_wrote {I : List String → Prop} {F : List String → Bool → Prop} {fs fs' : Fs} (h : Wrote I F fs fs')
    (hf : Fs.Finite fs) (is fols : List (List String)) (hi : ∀ q, I q → q ∈ is) (hfo : ∀ q b, F q b → q ∈ fols) : Fs.Finite fs' := by
  obtain ⟨ps, hps⟩ := hf
  refine ⟨ps ++ fols.flatMap (fun p => (List.range (p.length + 1)).map p.take) ++ fols.map (· ++ ["section.py"]) ++ is, fun q hq => ?_⟩
  cases hn : fs' q with
  | none => exact absurd hn hq
  | some n =>
    simp only [List.mem_append]
    rcases h.new q n hn with h' | ⟨_, p, b, hp, hpre⟩ | ⟨_, p, hp, e⟩ | ⟨h', _⟩
    · exact .inl (.inl (.inl (hps q (by rw [h']; simp))))
    · exact .inl (.inl (.inr (List.mem_flatMap.2 ⟨p, hfo p b hp, List.mem_map.2
        ⟨q.length, by rw [List.mem_range]; exact Nat.lt_succ_of_le hpre.length_le, (List.prefix_iff_eq_take.1 hpre).symm⟩⟩)))
    · exact .inl (.inr (List.mem_map.2 ⟨p, hfo p _ hp, e.symm⟩))
    · exact .inr (hi q h')

/-- What a load writes. -/
theorem createRegistrars_wrote {env : FsEnv} (hcwd : Path.isAbs env.cwd = true) {lang : DefLang V L} {text : ItemText V}
    {folder base : String} {classes : List ClassConfig} {fs fs' : Fs} {r : Registry V}
    (h : createRegistrars env lang text folder base classes fs = (.ok r, fs')) (hp : PlainTree (Registry.entries r)) :
    Wrote (fun p => ∃ i ∈ itemFiles false (env.resolve base) (Registry.entries r), i.path = p)
      (fun p c => ∃ f ∈ allFolders false (env.resolve base) (Registry.entries r), f.path = p ∧ f.specific = c) fs fs' := by
  have h' := h
  rw [createRegistrars_run] at h'
  cases hr : (readRegistry env lang folder classes fs).1 with
  | error e => rw [hr] at h'; cases h'
  | ok r' =>
    rw [hr] at h'
    simp only at h'
    cases hv : validateRegistrars r' with
    | error e => rw [hv] at h'; cases h'
    | ok u =>
      have hrr := (readRegistry_iff env lang folder classes fs r').1 hr
      obtain ⟨items, hg⟩ := hrr.coll
      obtain ⟨h1, _, h3⟩ := createRegistrars_seq env lang text folder base classes fs r' items hg hr hv
      rw [h] at h1 h3
      have := h3 r rfl
      subst this
      have he : Registry.entries r = r.specific ++ items := by
        unfold Registry.entries
        rw [hg]
      rw [he] at hp
      have hw := load_wrote hcwd text base r.specific items (readsClasses_coll hrr.specific) hp fs
      rw [← h1] at hw
      rw [he]
      exact hw

theorem createRegistrars_finite {env : FsEnv} (hcwd : Path.isAbs env.cwd = true) {lang : DefLang V L} {text : ItemText V}
    {folder base : String} {classes : List ClassConfig} {fs fs' : Fs} {r : Registry V}
    (h : createRegistrars env lang text folder base classes fs = (.ok r, fs')) (hp : PlainTree (Registry.entries r))
    (hf : Fs.Finite fs) : Fs.Finite fs' := by
  refine finite_wrote (createRegistrars_wrote hcwd h hp) hf
    ((itemFiles false (env.resolve base) (Registry.entries r)).map (·.path))
    ((allFolders false (env.resolve base) (Registry.entries r)).map (·.path)) ?_ ?_
  · rintro q ⟨i, hi, e⟩
    exact List.mem_map.2 ⟨i, hi, e⟩
  · rintro q b ⟨f, hf, e, _⟩
    exact List.mem_map.2 ⟨f, hf, e⟩

/-! ### Theorems -/

/-- After a load, an item of the definitions has its file and stands for it. -/
theorem loadProject_item [BEq V] {env : FsEnv} (hcwd : Path.isAbs env.cwd = true) {lang : DefLang V L} {text : ItemText V}
    {eval : EvalText V} {list : Fs → DirTree} {folder base : String} {classes : List ClassConfig} {fs fs' : Fs}
    (hc : Fs.Closed fs) {rs : RS V} (h : loadProject env lang text eval list folder base classes fs = (.ok rs, fs'))
    (hl : TreeOf fs' (env.resolve base) (list fs')) (hp : PlainTree (Registry.entries rs.reg))
    (ho : OwnNames false (Registry.entries rs.reg)) {p : List String} {k : Callable V}
    (hk : rs.reg.lookup p = .ok (.item k)) (hplain : PlainPath ((env.resolve base).getLast?.getD "") p)
    (hres : NotReserved managerReserved p) (hsec : ∀ x ∈ p.dropLast, ¬Hidden x) (hlast : p.getLast? ≠ some "section")
    (hd : fs' (env.resolve base ++ p) ≠ some .dir) :
    RunnerItem rs p k ∧ created rs p = none ∧ rs.cm.walk p = .ok (.file (.item p)) ∧
    ∃ b name t, p.getLast? = some name ∧ text b name k (contentAt fs ((FileLoc.item p).place (env.resolve base))) = .ok t ∧
      fs' ((FileLoc.item p).place (env.resolve base)) = some (.file t) ∧
      ownConfig rs.cm p = (eval (.item p) t).map (Conf.ofFile (.item p)) := by
  obtain ⟨h1, h2, h3, h4⟩ := loadProject_ok h
  obtain ⟨hr, _, hf⟩ := C65_loaded env hcwd lang text folder base classes fs hc.root _ _ h1
  obtain ⟨b, name, hn, hm⟩ := lookup_itemFiles hk (readsClasses_coll hr.specific) hr.coll (env.resolve base)
  obtain ⟨t, ht1, ht2⟩ := hf hp ho _ hm
  have hne : p ≠ [] := by rintro rfl; cases hn
  have hcl := (createRegistrars_wrote hcwd h1 hp).closed hc
  have hi := treeOf_item hcl p hne _ _ hl (fun x hx => (not_hidden_iff x).2 (hsec x hx)) hlast ⟨t, ht2⟩ hd
  obtain ⟨c1, c2⟩ := C53_own_file_partial _ _ _ h2 p hi hplain hres
  refine ⟨⟨c1, hk⟩, ?_, ?_, b, name, t, hn, ht1, ht2, ?_⟩
  · show rs.objs.get? p = none
    rw [h3]
    exact Dict.get?_empty p
  · obtain ⟨d1, d2, _⟩ := C53_read_on_use _ _ _ h2 p hplain
    rcases c1.found with ⟨c, hw⟩ | ⟨l, hw⟩
    · exact absurd hw (d1 c)
    · rw [hw, d2 l hw]
  · rw [c2]
    show (readConfig eval (env.resolve base) fs' (.item p)).map _ = _
    unfold readConfig
    rw [ht2]

/-- C79 (missing: sections starting with `_` or `.`, see `C79_ignored_violated`; names like that of the section around them or of an
attribute of sections, see C53; items called `section`, whose file is that of a section; items beside a folder of their name): after
a load, every item of the definitions has its file, with the text made for it, and can be used with it. -/
theorem C79_usable_partial [BEq V] (env : FsEnv) (hcwd : Path.isAbs env.cwd = true) (lang : DefLang V L) (text : ItemText V)
    (eval : EvalText V) (list : Fs → DirTree) (folder base : String) (classes : List ClassConfig) (fs fs' : Fs)
    (hc : Fs.Closed fs) (rs : RS V) (h : loadProject env lang text eval list folder base classes fs = (.ok rs, fs'))
    (hl : TreeOf fs' (env.resolve base) (list fs')) (hp : PlainTree (Registry.entries rs.reg))
    (ho : OwnNames false (Registry.entries rs.reg)) :
    ReadsAll env lang folder classes fs rs.reg ∧ rs.Reachable ∧
    ∀ p k, rs.reg.lookup p = .ok (.item k) → PlainPath ((env.resolve base).getLast?.getD "") p →
      NotReserved managerReserved p → (∀ x ∈ p.dropLast, ¬Hidden x) → p.getLast? ≠ some "section" →
      fs' (env.resolve base ++ p) ≠ some .dir →
      ∃ b name t, p.getLast? = some name ∧ text b name k (contentAt fs ((FileLoc.item p).place (env.resolve base))) = .ok t ∧
        fs' ((FileLoc.item p).place (env.resolve base)) = some (.file t) ∧ Usable rs eval p k t := by
  obtain ⟨h1, h2, h3, h4⟩ := loadProject_ok h
  obtain ⟨hr, _, hf⟩ := C65_loaded env hcwd lang text folder base classes fs hc.root _ _ h1
  have hfresh : rs.Fresh := ⟨h3, h4, _, _, h2⟩
  refine ⟨hr, ⟨rs, [], hfresh, by simp, rfl⟩, ?_⟩
  intro p k hk hplain hres hsec hlast hd
  obtain ⟨e1, e2, _, b, name, t, e3, e4, e5, e6⟩ := loadProject_item hcwd hc h hl hp ho hk hplain hres hsec hlast hd
  exact ⟨b, name, t, e3, e4, e5, usable_of ⟨_, _, _, [], h2, by simp, rfl⟩ e1 e2 e6⟩

/-- C79 when files are changed between the load and the first use of an item (missing: as in `C79_usable_partial`): the item is
used with the text its file has then, and getting it is an error if the file is gone. -/
theorem C79_edited_partial [BEq V] (env : FsEnv) (hcwd : Path.isAbs env.cwd = true) (lang : DefLang V L) (text : ItemText V)
    (eval : EvalText V) (list : Fs → DirTree) (folder base : String) (classes : List ClassConfig) (fs fs' : Fs)
    (hc : Fs.Closed fs) (rs : RS V) (h : loadProject env lang text eval list folder base classes fs = (.ok rs, fs'))
    (hl : TreeOf fs' (env.resolve base) (list fs')) (hp : PlainTree (Registry.entries rs.reg))
    (ho : OwnNames false (Registry.entries rs.reg)) (p : List String) (k : Callable V)
    (hk : rs.reg.lookup p = .ok (.item k)) (hplain : PlainPath ((env.resolve base).getLast?.getD "") p)
    (hres : NotReserved managerReserved p) (hsec : ∀ x ∈ p.dropLast, ¬Hidden x) (hlast : p.getLast? ≠ some "section")
    (hd : fs' (env.resolve base ++ p) ≠ some .dir) (now : Fs) :
    (∀ t, now ((FileLoc.item p).place (env.resolve base)) = some (.file t) →
      Usable (rs.step (.edit (configFiles eval list (env.resolve base) now))) eval p k t) ∧
    ((∀ t, now ((FileLoc.item p).place (env.resolve base)) ≠ some (.file t)) →
      (RM.get p (rs.step (.edit (configFiles eval list (env.resolve base) now)))).1 = .error .osError) := by
  obtain ⟨_, h2, _, _⟩ := loadProject_ok h
  obtain ⟨e1, e2, e3, _⟩ := loadProject_item hcwd hc h hl hp ho hk hplain hres hsec hlast hd
  have hci : ConfigItem (rs.step (.edit (configFiles eval list (env.resolve base) now))).cm p :=
    ⟨e1.config.ne, e1.config.plain, e1.config.found⟩
  have hown : ownConfig (rs.step (.edit (configFiles eval list (env.resolve base) now))).cm p =
      (readConfig eval (env.resolve base) now (.item p)).map (Conf.ofFile (.item p)) := by
    unfold ownConfig
    have : (rs.step (.edit (configFiles eval list (env.resolve base) now))).cm.walk p = .ok (.file (.item p)) := e3
    rw [this]
    show Files.load (configFiles eval list (env.resolve base) now) (.item p) = _
    unfold Files.load
    show (match readConfig eval (env.resolve base) now (.item p) with
      | .ok d => (.ok (Conf.ofFile (.item p) d) : Except PyErr (Conf V))
      | .error e => .error e) = _
    cases readConfig eval (env.resolve base) now (.item p) <;> rfl
  refine ⟨fun t ht => ?_, fun ht => ?_⟩
  · refine usable_of ⟨_, _, _, [.edit (configFiles eval list (env.resolve base) now)], h2, by simp [CMOp.Valid], rfl⟩ ⟨hci, hk⟩ e2 ?_
    rw [hown]
    unfold readConfig
    rw [ht]
  · refine get_raises (s := rs.step (.edit (configFiles eval list (env.resolve base) now))) hk e2
      (C10_unreadable_file _ p hci _ ?_)
    rw [hown]
    unfold readConfig
    split
    · rename_i t h
      exact absurd h (ht t)
    · rfl

mutual
theorem fromFiles_ok {fs : Fs} {base : List String} {eval : EvalText V} {list : Fs → DirTree}
    (he : ∀ q t, fs ((FileLoc.sect q).place base) = some (.file t) → ∃ v, eval (.sect q) t = .ok v) : ∀ (tr : DirTree) (p : List String),
    TreeOf fs (base ++ p) tr → ∃ n, fromFiles (configFiles eval list base fs) p tr = .ok n
  | .mk b files dirs, p, h => by
    cases h with
    | mk sect items folders once below =>
      rw [fromFiles]
      have hs : ∃ cfg, sectionConfig (configFiles eval list base fs) p b = .ok cfg := by
        unfold sectionConfig
        cases b with
        | false => exact ⟨none, rfl⟩
        | true =>
          obtain ⟨t, ht⟩ := sect.1 rfl
          have ht : fs ((FileLoc.sect p).place base) = some (.file t) := ht
          obtain ⟨v, hv⟩ := he p t ht
          have : (configFiles eval list base fs).load (.sect p) = .ok (Conf.ofFile (.sect p) v) := by
            unfold Files.load
            have hr : (configFiles eval list base fs).read (.sect p) = .ok v := by
              show readConfig eval base fs (.sect p) = _
              unfold readConfig
              rw [ht]
              exact hv
            rw [hr]
          rw [if_pos rfl, this]
          exact ⟨_, rfl⟩
      obtain ⟨cfg, hs⟩ := hs
      obtain ⟨ns, hd⟩ := fromFilesDirs_ok he dirs p (fun x t hx => by
        have := below x t hx
        rwa [List.append_assoc] at this)
      rw [hs, hd]
      exact ⟨_, rfl⟩
theorem fromFilesDirs_ok {fs : Fs} {base : List String} {eval : EvalText V} {list : Fs → DirTree}
    (he : ∀ q t, fs ((FileLoc.sect q).place base) = some (.file t) → ∃ v, eval (.sect q) t = .ok v) :
    ∀ (dirs : List (String × DirTree)) (p : List String), (∀ x t, (x, t) ∈ dirs → TreeOf fs (base ++ (p ++ [x])) t) →
    ∃ ns, fromFilesDirs (configFiles eval list base fs) p dirs = .ok ns
  | [], p, _ => ⟨[], by rw [fromFilesDirs]⟩
  | (x, t) :: ds, p, h => by
    rw [fromFilesDirs]
    obtain ⟨n, h1⟩ := fromFiles_ok he t (p ++ [x]) (h x t List.mem_cons_self)
    obtain ⟨ns, h2⟩ := fromFilesDirs_ok he ds p (fun x t hx => h x t (List.mem_cons_of_mem _ hx))
    rw [h1, h2]
    exact ⟨_, rfl⟩
end

/-- C79: if the definitions can be loaded, the manager can, unless executing the file of a section is an error. -/
theorem C79_loads (env : FsEnv) (lang : DefLang V L) (text : ItemText V) (eval : EvalText V) (list : Fs → DirTree)
    (folder base : String) (classes : List ClassConfig) (fs fs' : Fs) (r : Registry V)
    (h : createRegistrars env lang text folder base classes fs = (.ok r, fs'))
    (hl : TreeOf fs' (env.resolve base) (list fs'))
    (he : ∀ q t, fs' ((FileLoc.sect q).place (env.resolve base)) = some (.file t) → ∃ v, eval (.sect q) t = .ok v) :
    ∃ rs, loadProject env lang text eval list folder base classes fs = (.ok rs, fs') ∧ rs.reg = r := by
  obtain ⟨n, hn⟩ := fromFiles_ok (list := list) he (list fs') [] (by rw [List.append_nil]; exact hl)
  unfold loadProject
  rw [M.bind_ok h, M.bind_ok (M.get_run fs'), M.bind_run, M.liftE_run]
  unfold CM.load
  rw [show (configFiles eval list (env.resolve base) fs').tree = list fs' from rfl, hn]
  exact ⟨_, rfl, rfl⟩

/-- C79 fails for a section starting with `_` or `.`: its files are made, but its configs are not loaded. -/
theorem C79_ignored_violated [BEq V] (env : FsEnv) (lang : DefLang V L) (text : ItemText V)
    (eval : EvalText V) (list : Fs → DirTree) (folder base : String) (classes : List ClassConfig) (fs fs' : Fs)
    (rs : RS V) (h : loadProject env lang text eval list folder base classes fs = (.ok rs, fs'))
    (hl : TreeOf fs' (env.resolve base) (list fs')) (x : String) (p : List String) (k : Callable V)
    (hk : rs.reg.lookup (x :: p) = .ok (.item k)) (hx : Hidden x)
    (hres : x ∉ managerReserved) (hroot : x ≠ (env.resolve base).getLast?.getD "")
    (hf : ∀ t, fs' (env.resolve base ++ [x ++ ".py"]) ≠ some (.file t)) : (RM.get (x :: p) rs).1 = .error .keyError := by
  obtain ⟨_, h2, h3, _⟩ := loadProject_ok h
  replace hx := (hidden_iff x).2 hx
  refine get_raises hk (by show rs.objs.get? _ = none; rw [h3]; exact Dict.get?_empty _) ?_
  have hw : rs.cm.walk (x :: p) = .error .keyError := by
    unfold CM.load at h2
    cases hr : fromFiles (configFiles eval list (env.resolve base) fs') [] (configFiles eval list (env.resolve base) fs').tree with
    | error e => rw [hr] at h2; cases h2
    | ok root =>
      rw [hr] at h2
      have h2 := (Except.ok.inj h2).symm
      have hcm : rs.cm.root = root ∧ rs.cm.rootName = (env.resolve base).getLast?.getD "" := by rw [h2]; exact ⟨rfl, rfl⟩
      have hr : fromFiles (configFiles eval list (env.resolve base) fs') [] (list fs') = .ok root := hr
      unfold CM.walk
      rw [hcm.1, hcm.2]
      generalize list fs' = t at hl hr
      cases hl with
      | mk sect items folders once below =>
        rename_i b files dirs
        rw [fromFiles] at hr
        cases hs : sectionConfig (configFiles eval list (env.resolve base) fs') [] b with
        | error e => rw [hs] at hr; cases hr
        | ok cfg =>
          rw [hs] at hr
          cases hd : fromFilesDirs (configFiles eval list (env.resolve base) fs') [] dirs with
          | error e => rw [hd] at hr; cases hr
          | ok ns =>
            rw [hd] at hr
            cases hr
            have hmap : ∀ (l : List (String × Node V)), x ∉ l.map Prod.fst →
                AList.get? (l.foldl (fun (m : List (String × Node V)) e => AList.set m e.1 e.2) []) x = none :=
              fun l hl => AList.get?_foldl_set_not l x hl []
            have hno : AList.get? ((files.map (fun f => (f, Node.file (.item ([] ++ [f])))) ++ ns : List (String × Node V)).foldl
                (fun (m : List (String × Node V)) e => AList.set m e.1 e.2) []) x = none := by
              apply hmap
              rw [List.map_append, List.mem_append, fromFilesDirs_keys hd]
              rintro (h | h)
              · simp only [List.map_map, List.mem_map, Function.comp] at h
                obtain ⟨f, h4, h5⟩ := h
                subst h5
                obtain ⟨_, t, ht⟩ := (items _).1 h4
                exact hf t ht
              · rw [((folders x).1 h).1] at hx
                cases hx
            rw [Node.walk]
            have hchild : Node.child managerReserved ((env.resolve base).getLast?.getD "")
                (.sect cfg [] ((files.map (fun f => (f, Node.file (.item ([] ++ [f])))) ++ ns : List (String × Node V)).foldl
                  (fun (m : List (String × Node V)) e => AList.set m e.1 e.2) [])) x = .error .keyError := by
              unfold Node.child
              simp only [if_neg hres, AList.get?]
              rw [hno]
              cases cfg with
              | none => rfl
              | some c => simp only [if_neg hroot]
            rw [hchild]
  unfold CMM.get
  rw [M.bind_run, getFunc_error hw]

/-! ### Examples -/

theorem toyDefFs_closed (a b : String) : Fs.Closed (toyDefFs a b) := by
  have h1 : Fs.Closed (Fs.blank.put ["p"] .dir) := (put_adds (allowed := fun _ _ => True) rfl trivial
    (fun r x h _ => by have := append_singleton_inj (q := []) h; subst this; rfl)).closed blank_closed
  have h2 : Fs.Closed ((Fs.blank.put ["p"] .dir).put ["p", "pipeline_dict.py"] (.file a)) :=
    (put_adds (allowed := fun _ _ => True) rfl trivial
      (fun r x h _ => by have := append_singleton_inj (q := ["p"]) h; subst this; rfl)).closed h1
  exact (put_adds (allowed := fun _ _ => True) rfl trivial
    (fun r x h _ => by have := append_singleton_inj (q := ["p"]) h; subst this; rfl)).closed h2

theorem toyDefFs_finite (a b : String) : Fs.Finite (toyDefFs a b) := by
  refine ⟨[[], ["p"], ["p", "pipeline_dict.py"], ["p", "c_dict.py"]], fun q hq => ?_⟩
  unfold toyDefFs Fs.put Fs.blank at hq
  simp only [List.mem_cons, List.not_mem_nil, or_false]
  split at hq
  · exact .inr (.inr (.inr (by assumption)))
  · split at hq
    · exact .inr (.inr (.inl (by assumption)))
    · split at hq
      · exact .inr (.inl (by assumption))
      · split at hq
        · exact .inl (by assumption)
        · exact absurd rfl hq

theorem toy_plain : PlainTree (Registry.entries (toyRegistry "f" "x")) ∧ OwnNames false (Registry.entries (toyRegistry "f" "x")) := by
  simp only [Registry.entries, toyRegistry, List.cons_append, List.nil_append, PlainTree, OwnNames, itemNames, sectionNames]
  decide +kernel

/-- The hypotheses of `C79_usable_partial` (and of `C79_edited_partial`, whose later files are arbitrary), for a load that makes
the files. -/
example : ∃ (list : Fs → DirTree) (rs : RS Unit) (fs' : Fs),
    Path.isAbs freeEnv.cwd = true ∧ Fs.Closed (toyDefFs "f" "x") ∧
    loadProject freeEnv toyDefs keepText (fun _ _ => .ok Dict.empty) list "p" "d" [⟨some "c", true⟩] (toyDefFs "f" "x") = (.ok rs, fs') ∧
    TreeOf fs' (freeEnv.resolve "d") (list fs') ∧ PlainTree (Registry.entries rs.reg) ∧ OwnNames false (Registry.entries rs.reg) ∧
    rs.reg.lookup ["c", "s", "x"] = .ok (.item scaffoldItem) ∧ rs.reg.lookup ["s", "f"] = .ok (.item scaffoldItem) ∧
    PlainPath ((freeEnv.resolve "d").getLast?.getD "") ["s", "f"] ∧ NotReserved managerReserved ["s", "f"] ∧
    ¬Hidden "s" ∧ fs' (freeEnv.resolve "d" ++ ["s", "f"]) ≠ some .dir := by
  have hf := createRegistrars_finite (by decide +kernel) toy_load toy_plain.1 (toyDefFs_finite "f" "x")
  obtain ⟨t, ht⟩ := treeOf_exists hf (freeEnv.resolve "d")
  obtain ⟨rs, h1, h2⟩ := C79_loads freeEnv toyDefs keepText (fun _ _ => .ok Dict.empty) (fun _ => t) "p" "d" [⟨some "c", true⟩]
    (toyDefFs "f" "x") _ _ toy_load ht (fun _ _ _ => ⟨_, rfl⟩)
  refine ⟨fun _ => t, rs, _, by decide +kernel, toyDefFs_closed _ _, h1, ht, ?_⟩
  rw [h2]
  refine ⟨toy_plain.1, toy_plain.2, ?_, ?_, by decide +kernel, by decide +kernel, not_or.2 (by decide +kernel), ?_⟩
  · have h2 : ("s" ∈ registrarReserved) = False := by simp [registrarReserved, collectionReserved]
    have h3 : ("x" ∈ collectionReserved) = False := by simp [collectionReserved]
    simp [toyRegistry, Registry.lookup, Reg.walk, Reg.attr, h2, h3, Reg.nameDict, AList.get?, AList.set]
  · have h2 : ("s" ∈ registrarReserved) = False := by simp [registrarReserved, collectionReserved]
    have h3 : ("f" ∈ collectionReserved) = False := by simp [collectionReserved]
    simp [toyRegistry, Registry.lookup, Reg.walk, Reg.attr, h2, h3, Reg.nameDict, AList.get?, AList.set]
  · intro h
    have hw := createRegistrars_wrote (by decide +kernel) toy_load toy_plain.1
    rcases hw.new _ _ h with h' | ⟨_, p, b, ⟨f, hf, e, _⟩, hpre⟩ | ⟨h', _⟩ | ⟨_, t, h'⟩
    · exact absurd h' (by decide +kernel)
    · simp only [allFolders, Registry.entries, toyRegistry, List.cons_append, List.nil_append, sectionFolders, List.append_nil,
        List.mem_cons, List.not_mem_nil, or_false] at hf
      have hd : freeEnv.resolve "d" = ["d"] := by decide +kernel
      rw [hd] at hf hpre
      rcases hf with rfl | rfl | rfl | rfl <;> subst e <;> revert hpre <;> decide +kernel
    · cases h'
    · cases h'

/-- Definitions of one item, in a section starting with `_`. -/
def hiddenDefs : DefLang Unit String where
  read _ o := match o with
    | none => .error .valueError
    | some t => .ok [("_s", .list [.leaf t])]
  resolve _ x := .ok (x, scaffoldItem)

def hiddenRegistry : Registry Unit := ⟨[], .coll false [("_s", .coll false [("f", .item scaffoldItem)])]⟩

theorem hidden_load : createRegistrars freeEnv hiddenDefs keepText "p" "d" [] (toyDefFs "f" "x") =
    (.ok hiddenRegistry, (createRegistrars freeEnv hiddenDefs keepText "p" "d" [] (toyDefFs "f" "x")).2) := by
  have h1 : contentAt (toyDefFs "f" "x") (freeEnv.resolve (Path.join2 "p" "pipeline_dict.py")) = some "f" := by decide +kernel
  have hr := (readRegistry_iff freeEnv hiddenDefs "p" [] (toyDefFs "f" "x") hiddenRegistry).2
    ⟨⟨by decide +kernel, [("_s", .list [.leaf "f"])], by rw [h1]; rfl, by
      simp [Reg.fromDefinition, fromDict, fromList, hiddenDefs, hiddenRegistry, bind, Except.bind, pure, Except.pure]⟩, .nil⟩
  obtain ⟨_, h2, h3⟩ := createRegistrars_seq freeEnv hiddenDefs keepText "p" "d" [] (toyDefFs "f" "x") _ _ rfl hr
    (by decide +kernel)
  have : ((do scaffoldSpecific freeEnv keepText "d" hiddenRegistry.specific
              (Reg.coll false [("_s", .coll false [("f", .item scaffoldItem)])]).scaffold freeEnv keepText "d" : FM Unit)
            (toyDefFs "f" "x")).1 = .ok () := by
    simp only [hiddenRegistry, scaffoldSpecific, Reg.scaffold, outputItems]
    decide +kernel
  obtain ⟨r, h⟩ := h2.2 this
  have := h3 r h
  subst this
  rw [← h]

/-- An instance of `C79_ignored_violated`: the item is registered and has its file, and cannot be used. -/
example : ∃ (list : Fs → DirTree) (rs : RS Unit) (fs' : Fs),
    loadProject freeEnv hiddenDefs keepText (fun _ _ => .ok Dict.empty) list "p" "d" [] (toyDefFs "f" "x") = (.ok rs, fs') ∧
    rs.reg.lookup ["_s", "f"] = .ok (.item scaffoldItem) ∧ fs' ["d", "_s", "f.py"] = some (.file "# f") ∧
    (RM.get ["_s", "f"] rs).1 = .error .keyError := by
  have hpl : PlainTree (Registry.entries hiddenRegistry) ∧ OwnNames false (Registry.entries hiddenRegistry) := by
    simp only [Registry.entries, hiddenRegistry, List.nil_append, PlainTree, OwnNames, itemNames, sectionNames]
    decide +kernel
  have hf := createRegistrars_finite (by decide +kernel) hidden_load hpl.1 (toyDefFs_finite "f" "x")
  have hd : freeEnv.resolve "d" = ["d"] := by decide +kernel
  obtain ⟨t, ht⟩ := treeOf_exists hf (freeEnv.resolve "d")
  obtain ⟨rs, h1, h2⟩ := C79_loads freeEnv hiddenDefs keepText (fun _ _ => .ok Dict.empty) (fun _ => t) "p" "d" []
    (toyDefFs "f" "x") _ _ hidden_load ht (fun _ _ _ => ⟨_, rfl⟩)
  have hk : rs.reg.lookup ["_s", "f"] = .ok (.item scaffoldItem) := by
    rw [h2]
    have h2 : ("_s" ∈ registrarReserved) = False := by simp [registrarReserved, collectionReserved]
    have h3 : ("f" ∈ collectionReserved) = False := by simp [collectionReserved]
    simp [hiddenRegistry, Registry.lookup, Reg.walk, Reg.attr, h2, h3, Reg.nameDict, AList.get?, AList.set]
  refine ⟨fun _ => t, rs, _, h1, hk, ?_, ?_⟩
  · obtain ⟨_, _, h⟩ := C65_loaded freeEnv (by decide +kernel) hiddenDefs keepText "p" "d" [] (toyDefFs "f" "x")
      (toyDefFs_closed "f" "x").root _ _ hidden_load
    obtain ⟨t, h3, h4⟩ := h hpl.1 hpl.2 ⟨["d", "_s", "f.py"], false, "f", scaffoldItem⟩ (by
      simp only [Registry.entries, hiddenRegistry, List.nil_append, itemFiles, List.append_nil, hd]
      exact List.mem_cons_self)
    have h3 : keepText false "f" scaffoldItem (contentAt (toyDefFs "f" "x") ["d", "_s", "f.py"]) = .ok t := h3
    rw [show contentAt (toyDefFs "f" "x") ["d", "_s", "f.py"] = none by decide +kernel] at h3
    have h3 : t = "# " ++ "f" := (Except.ok.inj h3).symm
    rw [h4, h3]
    rfl
  · refine C79_ignored_violated freeEnv hiddenDefs keepText _ _ "p" "d" [] _ _ rs h1 ht "_s" ["f"] scaffoldItem hk
      (.inl (by decide +kernel)) (by decide +kernel) (by decide +kernel) ?_
    intro u hu
    have hw := createRegistrars_wrote (by decide +kernel) hidden_load hpl.1
    rcases hw.new _ _ hu with h' | ⟨h', _⟩ | ⟨_, p, ⟨f, hf, e, _⟩, hp⟩ | ⟨⟨i, hi, e⟩, _⟩
    · revert h'
      rw [hd, show toyDefFs "f" "x" (["d"] ++ ["_s" ++ ".py"]) = none by decide +kernel]
      simp
    · cases h'
    · simp only [allFolders, Registry.entries, hiddenRegistry, List.nil_append, sectionFolders, List.append_nil,
        List.mem_cons, List.not_mem_nil, or_false, hd] at hf
      rw [hd] at hp
      rcases hf with rfl | rfl <;> subst e <;> revert hp <;> decide +kernel
    · simp only [Registry.entries, hiddenRegistry, List.nil_append, itemFiles, List.append_nil, hd, List.mem_cons, List.not_mem_nil,
        or_false] at hi
      subst hi
      revert e
      rw [hd]
      decide +kernel

/-! ## C80 -/

/-! ### Specification -/

/-- The item can get a config: what is on the way to it are sections, there is nothing from some point on, and what is then created
can be found again; or there is a config file for it, which has not been loaded. -/
def NewConfig (s : CM V) (p : List String) : Prop :=
  (∃ d x r cfg attrs map, p = d ++ x :: r ∧ s.walk d = .ok (.sect cfg attrs map) ∧ s.walk (d ++ [x]) = .error .keyError ∧
    NotReserved sectionReserved r) ∨ s.walk p = .ok (.file (.item p))

/-! ### Lemmas -/

theorem place_item (base reg path : List String) (name : String) :
    (FileLoc.item (reg ++ path ++ [name])).place base = base ++ reg ++ path ++ [name ++ ".py"] := by
  simp [FileLoc.place]

/-- A reset with creation of an item that has no object. -/
theorem reset_new [BEq V] {s : RS V} (hs : s.cm.Reachable) {p : List String} (hne : p ≠ []) (hnew : NewConfig s.cm p)
    (hpl : PlainPath s.cm.rootName p) (hn : created s p = none) {s' : RS V} (h : RM.reset (some p) true s = (.ok (), s')) :
    ∃ v, s.cm.fs.read (.item p) = .ok v ∧ s'.reg = s.reg ∧ s'.objs = s.objs ∧
      s'.cm = (CMM.reset (some p) true s.cm).2 ∧
      s'.cm.walk p = .ok (.conf (Conf.ofFile (.item p) v)) ∧
      s'.cm.rootName = s.cm.rootName := by
  have key : ∀ {c : Conf V} {w : Bool} {v : Dict String V}, s.cm.fs.read (.item p) = .ok v →
      (CMM.reset (some p) true s.cm).1 = .ok (.conf c, w) →
      (CMM.reset (some p) true s.cm).2.walk p = .ok (.conf (Conf.ofFile (.item p) v)) →
      (CMM.reset (some p) true s.cm).2.rootName = s.cm.rootName →
      ∃ v, s.cm.fs.read (.item p) = .ok v ∧ s'.reg = s.reg ∧ s'.objs = s.objs ∧ s'.cm = (CMM.reset (some p) true s.cm).2 ∧
        s'.cm.walk p = .ok (.conf (Conf.ofFile (.item p) v)) ∧ s'.cm.rootName = s.cm.rootName := by
    intro c w v h0 h1 h2 h3
    unfold RM.reset at h
    rw [M.bind_run] at h
    unfold RM.liftC at h
    cases hc : CMM.reset (some p) true s.cm with
    | mk res cm =>
      rw [hc] at h h1 h2 h3
      simp only at h h1 h2 h3
      subst h1
      simp only at h
      have hn' : s.objs.get? p = none := hn
      cases w with
      | false =>
        cases h
        exact ⟨v, h0, rfl, rfl, rfl, h2, h3⟩
      | true =>
        simp only at h
        unfold RM.applyToLoaded at h
        rw [M.bind_ok (M.get_run _)] at h
        simp only [hn'] at h
        cases h
        exact ⟨v, h0, rfl, rfl, rfl, h2, h3⟩
  have herr : ∀ e, (CMM.reset (some p) true s.cm).1 ≠ .error e := by
    intro e he
    unfold RM.reset at h
    rw [M.bind_run] at h
    unfold RM.liftC at h
    simp only [he] at h
    cases h
  rcases hnew with ⟨q, x, r, cfg, attrs, map, rfl, hq, hx, hr⟩ | hf
  · cases hread : s.cm.fs.read (.item (q ++ x :: r)) with
    | error e =>
      have := C78_refused s.cm (q ++ x :: r) e (.inr ⟨walk_prefix_error hx, hread⟩)
      exact absurd (by rw [this]) (herr e)
    | ok v =>
      obtain ⟨h1, h2, _, _, _, h3⟩ := C78_new_partial s.cm hs q x r cfg attrs map hq hx hr v hread
      rw [← hread]
      exact key hread h1 h2 h3
  · cases hread : s.cm.fs.read (.item p) with
    | error e =>
      have : CMM.reset (some p) true s.cm = (.error e, s.cm) := by
        apply reset_error
        unfold CMM.getDefault CMM.defaultKind
        rw [hf]
        simp only
        unfold Files.load
        rw [hread]
        rfl
      exact absurd (by rw [this]) (herr e)
    | ok v =>
      have hci : ConfigItem s.cm p := ⟨hne, hpl, .inr ⟨_, hf⟩⟩
      have hown : ownConfig s.cm p = .ok (Conf.ofFile (.item p) v) := by
        unfold ownConfig
        rw [hf]
        simp only
        unfold Files.load
        rw [hread]
      cases hcl : Conf.clash CMM.determineReserved v with
      | true =>
        refine absurd ?_ (herr .typeError)
        rw [reset_existing_run s.cm p hci v hread _ hown, M.bind_run, M.liftE_run]
        unfold CMM.determineWouldUpdate
        rw [show (Conf.ofFile (.item p) v).values = v from rfl, hcl]
        rfl
      | false =>
        obtain ⟨h1, h2, _, h3⟩ := C78_existing_violated s.cm p hci v hread _ hown hcl
        rw [← hread]
        exact key hread h1 h2 h3

/-! ### Theorems -/

/-- C80 (missing: items of the same path that already have a loaded config or an object, see `C80_stale_violated`; names like that of the
section around them or of an attribute of sections): if `create` returns, the item has its file, with the text made for it, and can
be used with it. -/
theorem C80_usable_partial [BEq V] (env : FsEnv) (hcwd : Path.isAbs env.cwd = true) (lang : CreateLang V) (text : ItemText V)
    (eval : EvalText V) (list : Fs → DirTree) (folder base : String) (classes : List String) (sections : List String)
    (f : Option (NewItem V)) (s s' : Created V (RS V)) (hs : s.rest.cm.Reachable) (hroot : s.fs [] = some .dir) (q : Request V)
    (hq : requested lang folder classes sections f = some q)
    (hnames : PlainNames (q.path ++ [q.name])) (hplain : ∀ x ∈ q.registrar.toList ++ q.path, Path.Plain x)
    (hr : ∀ r, s.reg = some r → RegistrarFor r q.registrar q.path)
    (h : createItem env lang text folder base classes (resetCreated eval list (env.resolve base)) sections f s = (.ok (), s'))
    (hitems : ∀ r' g base' b items, s'.reg = some r' → registrarAt r' base q.registrar = some (g, base') →
      g.walk registrarReserved q.path = .ok (.coll b items) → PlainTree items ∧ OwnNames b items)
    (p : List String) (hp : q.registrar.toList ++ q.path ++ [q.name] = p)
    (hpp : PlainPath s.rest.cm.rootName p) (hnew : NewConfig s.rest.cm p) (hn : created s.rest p = none) :
    ∃ c b fs1 t, q.object = .ok c ∧
      text b q.name c (contentAt fs1 ((FileLoc.item p).place (env.resolve base))) = .ok t ∧
      s'.fs ((FileLoc.item p).place (env.resolve base)) = some (.file t) ∧
      Usable s'.rest eval p c t ∧ (∃ v, eval (.item p) t = .ok v) := by
  obtain ⟨q', r0, c, fs1, s1, g, base', b, items, a0, a1, a2, a3, a4, a5, a6, a7, a8, a9⟩ :=
    C66_created env lang text folder base classes _ sections f s s' h
  rw [hq] at a0
  cases a0
  have hreset : ∀ {s1 s' : Created V (RS V)} {p : List String}, resetCreated eval list (env.resolve base) p s1 = (.ok (), s') →
      ∃ r', s1.reg = some r' ∧ s'.reg = some r' ∧ s'.fs = s1.fs ∧
        RM.reset (some p) true { s1.rest with reg := r', cm := { s1.rest.cm with fs := configFiles eval list (env.resolve base) s1.fs } } =
          (.ok (), s'.rest) := by
    intro s1 s' p h
    unfold resetCreated at h
    cases hg : s1.reg with
    | none => rw [hg] at h; cases h
    | some r' =>
      rw [hg] at h
      simp only at h
      refine ⟨r', rfl, ?_⟩
      injection h with h1 h2
      subst h2
      exact ⟨rfl, rfl, Prod.ext h1 rfl⟩
  obtain ⟨r', b1, b2, b3, b4⟩ := hreset a9
  have hfor := hr r0 a2.1
  have hreg : q.registrar.toList = registrarPath q.registrar := by cases q.registrar <;> rfl
  have hfound := C39_found_partial r0 q.registrar q.path q.name c hfor hnames a3
  rw [a4] at b1
  cases b1
  obtain ⟨hpt, hown⟩ := hitems _ g base' b items b2 a6 a7
  obtain ⟨s2, c1, ⟨r2, c', d1, d2, d3, d4⟩⟩ := C66_complete_partial env hcwd lang text folder base classes _ sections f s s' hroot q hq
    hnames hplain hr h
  obtain ⟨r3, e1, e2, e3, _⟩ := hreset c1
  rw [d1] at e1
  cases e1
  rw [b2] at e2
  cases e2
  have hcc : c' = c := by
    have := a2.2.1
    rw [d2] at this
    cases this
    rfl
  subst hcc
  obtain ⟨t, t1, t2⟩ := (d4 fs1 a1 g base' b items a6 a7 hpt).1 hown
  rw [← place_item, hp] at t1 t2
  rw [← e3] at t2
  rw [hp, a5] at b4
  rw [hp] at d3
  obtain ⟨v, v1, v2, v3, v4, v5, v6⟩ := reset_new (s := { s.rest with
      reg := (r0.set q.registrar q.path (q.name, .item c')).2
      cm := { s.rest.cm with fs := configFiles eval list (env.resolve base) s1.fs } })
    (p := p) (by
      obtain ⟨fs0, rn, s0, ops, l1, l2, l3⟩ := hs
      refine ⟨fs0, rn, s0, ops ++ [.edit (configFiles eval list (env.resolve base) s1.fs)], l1, ?_, ?_⟩
      · intro op hop
        rcases List.mem_append.1 hop with hop | hop
        · exact l2 op hop
        · simp only [List.mem_cons, List.not_mem_nil, or_false] at hop
          subst hop
          trivial
      · rw [List.foldl_append, ← l3]
        rfl) (by rw [← hp]; simp) hnew hpp hn b4
  have hval : eval (.item p) t = .ok v := by
    have v1 : readConfig eval (env.resolve base) s1.fs (.item p) = .ok v := v1
    unfold readConfig at v1
    rw [← b3, t2] at v1
    exact v1
  refine ⟨c', b, fs1, t, a2.2.1, t1, t2, ?_, v, hval⟩
  refine usable_of ?_ ⟨⟨by rw [← hp]; simp, by rw [v6]; exact hpp, .inl ⟨_, v5⟩⟩, by rw [v2]; exact d3⟩ ?_ ?_
  · obtain ⟨fs0, rn, s0, ops, l1, l2, l3⟩ := hs
    refine ⟨fs0, rn, s0, ops ++ [.edit (configFiles eval list (env.resolve base) s1.fs), .reset (some p) true], l1, ?_, ?_⟩
    · intro op hop
      rcases List.mem_append.1 hop with hop | hop
      · exact l2 op hop
      · simp only [List.mem_cons, List.not_mem_nil, or_false] at hop
        rcases hop with rfl | rfl
        · trivial
        · show p ≠ []
          rw [← hp]
          simp
    · rw [List.foldl_append, ← l3, v4]
      rfl
  · show s'.rest.objs.get? _ = none
    rw [v3]
    exact hn
  · unfold ownConfig
    rw [v5, hval]
    rfl


/-- C80 fails for an item of which there is an object: the object stays, with the callable it had. -/
theorem C80_stale_violated [BEq V] (env : FsEnv) (lang : CreateLang V) (text : ItemText V)
    (eval : EvalText V) (list : Fs → DirTree) (folder base : String) (classes : List String) (sections : List String)
    (f : Option (NewItem V)) (s s' : Created V (RS V)) (q : Request V) (hq : requested lang folder classes sections f = some q)
    (h : createItem env lang text folder base classes (resetCreated eval list (env.resolve base)) sections f s = (.ok (), s'))
    (p : List String) (hp : q.registrar.toList ++ q.path ++ [q.name] = p) (o : Obj V) (ho : created s.rest p = some o) :
    ∃ o', created s'.rest p = some o' ∧ o'.callable = o.callable := by
  obtain ⟨q', r0, c, fs1, s1, g, base', b, items, a0, a1, a2, a3, a4, a5, a6, a7, a8, a9⟩ :=
    C66_created env lang text folder base classes _ sections f s s' h
  rw [hq] at a0
  cases a0
  rw [hp] at a9
  unfold resetCreated at a9
  rw [a4] at a9
  simp only at a9
  injection a9 with b1 b2
  subst b2
  have hev := RS.step_evolves (V := V) { s1.rest with
      reg := (r0.set q.registrar q.path (q.name, .item c)).2
      cm := { s1.rest.cm with fs := configFiles eval list (env.resolve base) s1.fs } } (op := .reset (some p) true) (by
        show p ≠ []
        rw [← hp]
        simp)
  obtain ⟨o', e1, e2⟩ := hev.objs p o (by
    show s1.rest.objs.get? p = some o
    rw [a5]
    exact ho)
  exact ⟨o', e1, e2.callable⟩

/-! ### Examples -/

def createRest (objs : Dict (List String) (Obj Unit)) : RS Unit := ⟨⟨⟨fun _ => .error .osError, .mk false [] []⟩, "d", .sect none [] [], Conf.ofDict Dict.empty⟩,
  createBlank, objs, objs.items.length⟩

def createWhole (objs : Dict (List String) (Obj Unit)) : Created Unit (RS Unit) := ⟨createFs, some createBlank, createRest objs⟩

def emptyEval : EvalText Unit := fun _ _ => .ok Dict.empty

theorem create_whole (objs : Dict (List String) (Obj Unit))
    (hr : ∀ fs2, fs2 ["d", "s", "f.py"] = some (.file "# f") → (RM.reset (some ["s", "f"]) true (V := Unit)
      { createRest objs with
        reg := ⟨[], .coll false [("s", .coll false createdItems)]⟩
        cm := { (createRest objs).cm with fs := configFiles emptyEval (fun _ => .mk false [] []) ["d"] fs2 } }).1 = .ok ()) :
    ∃ s', createItem freeEnv createToy keepText "p" "d" [] (resetCreated emptyEval (fun _ => .mk false [] []) (freeEnv.resolve "d")) ["s"]
      (some createNew) (createWhole objs) = (.ok (), s') ∧
      s'.reg = some ⟨[], .coll false [("s", .coll false createdItems)]⟩ := by
  have h := createItem_run freeEnv createToy keepText "p" "d" [] (resetCreated emptyEval (fun _ => .mk false [] []) (freeEnv.resolve "d"))
    ["s"] (some createNew) (createWhole objs)
  rw [create_requested] at h
  rcases h with ⟨_, hn⟩ | ⟨fs', h1, ⟨_, hn⟩ | ⟨r, c, h2, h3⟩⟩
  · exact absurd ⟨_, create_added⟩ hn
  · exact absurd ⟨createBlank, scaffoldItem, rfl, rfl, by intro k hk; cases hk⟩ hn
  · obtain ⟨h4, h5, _⟩ := h2
    cases h4
    cases h5
    rw [h3, createRegistered_run, ← EntryAdded.unique create_added h1]
    simp only [createWhole, createRequest, create_set, registrarAt, scaffoldFor_run, create_walk]
    have h6 : (Reg.scaffold freeEnv keepText "d/s" (.coll false createdItems) createFs1).1 = .ok () := by
      simp only [createdItems, Reg.scaffold, outputItems]
      decide +kernel
    have h7 : (Reg.scaffold freeEnv keepText "d/s" (.coll false createdItems) createFs1).2 ["d", "s", "f.py"] = some (.file "# f") := by
      simp only [createdItems, Reg.scaffold, outputItems]
      decide +kernel
    have hb : List.foldl Path.join2 "d" ["s"] = "d/s" := by decide +kernel
    have hd : freeEnv.resolve "d" = ["d"] := by decide +kernel
    rw [hb]
    cases hs : Reg.scaffold freeEnv keepText "d/s" (.coll false createdItems) createFs1 with
    | mk res fs2 =>
      rw [hs] at h6 h7
      cases res with
      | error e => cases h6
      | ok u =>
        have := hr fs2 h7
        simp only [hd]
        refine ⟨_, Prod.ext this rfl, rfl⟩

theorem createRest_reachable (objs : Dict (List String) (Obj Unit)) : (createRest objs).cm.Reachable :=
  ⟨⟨fun _ => .error .osError, .mk false [] []⟩, "d", _, [], rfl, by simp, rfl⟩

theorem create_resets (objs : Dict (List String) (Obj Unit))
    (ho : ∀ s : RS Unit, s.objs = objs → (RM.applyToLoaded ["s", "f"] Dict.empty Dict.empty s).1 = .ok ()) (fs2 : Fs)
    (h : fs2 ["d", "s", "f.py"] = some (.file "# f")) : (RM.reset (some ["s", "f"]) true (V := Unit)
      { createRest objs with
        reg := ⟨[], .coll false [("s", .coll false createdItems)]⟩
        cm := { (createRest objs).cm with fs := configFiles emptyEval (fun _ => .mk false [] []) ["d"] fs2 } }).1 = .ok () := by
  have hread : readConfig emptyEval ["d"] fs2 (.item ["s", "f"]) = .ok Dict.empty := by
    unfold readConfig
    rw [show (FileLoc.item ["s", "f"]).place ["d"] = ["d", "s", "f.py"] by decide +kernel, h]
    rfl
  obtain ⟨h1, _⟩ := C78_new_partial { (createRest objs).cm with fs := configFiles emptyEval (fun _ => .mk false [] []) ["d"] fs2 }
    ⟨⟨fun _ => .error .osError, .mk false [] []⟩, "d", _, [.edit (configFiles emptyEval (fun _ => .mk false [] []) ["d"] fs2)], rfl,
      by simp [CMOp.Valid], rfl⟩ [] "s" ["f"] _ _ _ rfl rfl (by decide) Dict.empty hread
  unfold RM.reset
  rw [M.bind_run]
  have hl : RM.liftC (CMM.reset (some ["s", "f"]) true) { createRest objs with
        reg := ⟨[], .coll false [("s", .coll false createdItems)]⟩
        cm := { (createRest objs).cm with fs := configFiles emptyEval (fun _ => .mk false [] []) ["d"] fs2 } } =
      (.ok (.conf (Conf.ofFile (.item ["s", "f"]) Dict.empty), true), ⟨(CMM.reset (some ["s", "f"]) true
        { (createRest objs).cm with fs := configFiles emptyEval (fun _ => .mk false [] []) ["d"] fs2 }).2,
        ⟨[], .coll false [("s", .coll false createdItems)]⟩, objs, objs.items.length⟩) := Prod.ext h1 rfl
  rw [hl]
  exact ho _ rfl

/-- The hypotheses of `C80_usable_partial`. -/
example : (createRest Dict.empty).cm.Reachable ∧ NewConfig (createRest Dict.empty).cm ["s", "f"] ∧
    PlainPath (createRest Dict.empty).cm.rootName ["s", "f"] ∧ created (createRest Dict.empty) ["s", "f"] = none ∧
    ∃ s', createItem freeEnv createToy keepText "p" "d" [] (resetCreated emptyEval (fun _ => .mk false [] []) (freeEnv.resolve "d")) ["s"]
      (some createNew) (createWhole Dict.empty) = (.ok (), s') := by
  refine ⟨createRest_reachable _, .inl ⟨[], "s", ["f"], _, _, _, rfl, rfl, rfl, by decide⟩, by decide, rfl, ?_⟩
  obtain ⟨s', h, _⟩ := create_whole Dict.empty (create_resets Dict.empty (by
    intro s hs
    unfold RM.applyToLoaded
    rw [M.bind_ok (M.get_run _), hs]
    rfl))
  exact ⟨s', h⟩

/-- An object of another function. -/
def staleObj : Obj Unit := ⟨0, true, { scaffoldItem with sig := ⟨["a"], [], []⟩ }, Dict.empty⟩

/-- An instance of `C80_stale_violated`: `create` succeeds, and the object of the other function stays. -/
example : ∃ s', createItem freeEnv createToy keepText "p" "d" [] (resetCreated emptyEval (fun _ => .mk false [] []) (freeEnv.resolve "d"))
      ["s"] (some createNew) (createWhole (Dict.ofList [(["s", "f"], staleObj)])) = (.ok (), s') ∧
    s'.reg = some ⟨[], .coll false [("s", .coll false createdItems)]⟩ ∧
    ∃ o, created s'.rest ["s", "f"] = some o ∧ o.callable.sig.args = ["a"] := by
  obtain ⟨s', h, h'⟩ := create_whole (Dict.ofList [(["s", "f"], staleObj)]) (create_resets _ (by
    intro s hs
    unfold RM.applyToLoaded
    rw [M.bind_ok (M.get_run _), hs]
    rfl))
  obtain ⟨o, h1, h2⟩ := C80_stale_violated freeEnv createToy keepText emptyEval _ "p" "d" [] ["s"] (some createNew) _ s' createRequest
    create_requested h ["s", "f"] rfl staleObj rfl
  exact ⟨s', h, h', o, h1, by rw [h2]; rfl⟩

end Verif.Props
