import Verif.Props.Always
import Verif.Props.Args
import Verif.Props.Atomic
import Verif.Props.Definition
import Verif.Props.EmptyObj
import Verif.Props.Files
import Verif.Props.FindSpec

/-!
# Which exception is raised

Several properties say when an operation fails; here is added what it fails with.
-/

namespace Verif.Props

open Verif.Py Verif.Model

/-! ## C37 and C38 -/

/-- C37: adding an item raises `ValueError` only if what is at the place is not a list, and
`TypeError` only if something on the way is not a dictionary. -/
theorem C37_kind {L : Type} (item : L) (p : List String) (hp : p ≠ []) (es : List (String × Def L)) (e : PyErr)
    (h : (addItem item es p).1 = .error e) :
    (e = .valueError ∧ ∃ d, keyedAt (.dict es) p = some d ∧ ∀ xs, d ≠ .list xs) ∨
    (e = .typeError ∧ ∃ q, q <+: p ∧ q ≠ p ∧ ∃ d, keyedAt (.dict es) q = some d ∧ ∀ inner, d ≠ .dict inner) := by
  induction p generalizing es with
  | nil => exact absurd rfl hp
  | cons x p ih =>
    have hkey : ∀ r, keyedAt (.dict es) (x :: r) = (AList.get? es x).bind (fun d => keyedAt d r) := by
      intro r
      rw [keyedAt, Defn.lookup_eq]
      cases AList.get? es x <;> rfl
    cases p with
    | nil =>
      left
      unfold addItem at h
      rw [hkey]
      cases hx : AList.get? es x with
      | none => rw [hx] at h; cases h
      | some d =>
        rw [hx] at h
        cases d with
        | list xs => cases h
        | dict inner => cases h; exact ⟨rfl, _, rfl, fun _ h => by cases h⟩
        | leaf l => cases h; exact ⟨rfl, _, rfl, fun _ h => by cases h⟩
    | cons y p =>
      unfold addItem at h
      cases hx : AList.get? es x with
      | none =>
        rw [hx] at h
        rcases ih (by simp) [] h with ⟨he, d, hd, _⟩ | ⟨_, q, hq, hne, d, hd, hno⟩
        · rw [keyedAt] at hd; cases hd
        · cases q with
          | nil => rw [keyedAt] at hd; cases hd; exact absurd rfl (hno [])
          | cons z q => rw [keyedAt] at hd; cases hd
      | some d =>
        rw [hx] at h
        cases d with
        | dict inner =>
          rcases ih (by simp) inner h with ⟨he, d, hd, hno⟩ | ⟨he, q, hq, hne, d, hd, hno⟩
          · exact .inl ⟨he, d, by rw [hkey, hx]; exact hd, hno⟩
          · refine .inr ⟨he, x :: q, List.cons_prefix_cons.2 ⟨rfl, hq⟩, ?_, d, by rw [hkey, hx]; exact hd, hno⟩
            intro hc; cases hc; exact hne rfl
        | list xs =>
          cases h
          refine .inr ⟨rfl, [x], List.cons_prefix_cons.2 ⟨rfl, List.nil_prefix⟩, by simp, .list xs, ?_, fun _ h => by cases h⟩
          rw [hkey, hx]; rfl
        | leaf l =>
          cases h
          refine .inr ⟨rfl, [x], List.cons_prefix_cons.2 ⟨rfl, List.nil_prefix⟩, by simp, .leaf l, ?_, fun _ h => by cases h⟩
          rw [hkey, hx]; rfl

example : (addItem "new" [("a", .list [.leaf "x"])] ["a", "b"]).1 = .error .typeError ∧
    (addItem "new" [("a", .dict [])] ["a"]).1 = .error .valueError := by decide +kernel

/-- A value that is neither a name nor a string is somewhere in the dictionary, outside of lists. -/
inductive HasOther : List (String × Def Leaf) → Prop
  | here (k : String) (rest : List (String × Def Leaf)) : HasOther ((k, .leaf .other) :: rest)
  | inner (k : String) (es rest : List (String × Def Leaf)) : HasOther es → HasOther ((k, .dict es) :: rest)
  | later (e : String × Def Leaf) (rest : List (String × Def Leaf)) : HasOther rest → HasOther (e :: rest)

/-- An element of a list that is not a name is somewhere in the dictionary. -/
inductive HasNoName : List (String × Def Leaf) → Prop
  | here (k : String) (xs : List (Def Leaf)) (x : Def Leaf) (rest : List (String × Def Leaf)) :
      x ∈ xs → (∀ id, x ≠ .leaf (.name id)) → HasNoName ((k, .list xs) :: rest)
  | inner (k : String) (es rest : List (String × Def Leaf)) : HasNoName es → HasNoName ((k, .dict es) :: rest)
  | later (e : String × Def Leaf) (rest : List (String × Def Leaf)) : HasNoName rest → HasNoName (e :: rest)

theorem renderList_error : ∀ (xs : List (Def Leaf)) (e : PyErr), renderList xs = .error e →
    e = .attributeError ∧ ∃ x ∈ xs, ∀ id, x ≠ .leaf (.name id)
  | [], e, h => by cases h
  | x :: rest, e, h => by
    have hother : (∀ id, x ≠ .leaf (.name id)) → renderList (x :: rest) = .error .attributeError →
        e = .attributeError ∧ ∃ y ∈ x :: rest, ∀ id, y ≠ .leaf (.name id) := by
      intro hx h'
      rw [h'] at h
      cases h
      exact ⟨rfl, x, List.mem_cons_self, hx⟩
    cases x with
    | dict es => exact hother (fun id hc => by cases hc) (by simp only [renderList])
    | list xs => exact hother (fun id hc => by cases hc) (by simp only [renderList])
    | leaf l =>
      cases l with
      | str t => exact hother (fun id hc => by cases hc) (by simp only [renderList])
      | other => exact hother (fun id hc => by cases hc) (by simp only [renderList])
      | name id =>
        simp only [renderList, bind, Except.bind] at h
        cases hr : renderList rest with
        | error e' =>
          rw [hr] at h; cases h
          obtain ⟨h1, y, hy, h2⟩ := renderList_error rest e hr
          exact ⟨h1, y, List.mem_cons_of_mem _ hy, h2⟩
        | ok s => rw [hr] at h; cases h

/-- C38: writing a definition fails only with `ValueError` for a value that is neither a name nor a string, or with
`AttributeError` for an element of a list that is not a name. -/
theorem C38_kind (es : List (String × Def Leaf)) (e : PyErr) (h : renderDefinition es = .error e) :
    (e = .valueError ∧ HasOther es) ∨ (e = .attributeError ∧ HasNoName es) := by
  have key : ∀ n, ∀ es : List (String × Def Leaf), sizeOf es < n → ∀ e, renderEntries es = .error e →
      (e = .valueError ∧ HasOther es) ∨ (e = .attributeError ∧ HasNoName es) := by
    intro n
    induction n with
    | zero => intro es h; omega
    | succ n ih =>
      intro es hn e h
      cases es with
      | nil => rw [renderEntries] at h; cases h
      | cons f rest =>
        obtain ⟨k, v⟩ := f
        have hlater : ∀ e, renderEntries rest = .error e →
            (e = .valueError ∧ HasOther ((k, v) :: rest)) ∨ (e = .attributeError ∧ HasNoName ((k, v) :: rest)) := by
          intro e h
          rcases ih rest (by simp at hn; omega) e h with ⟨h1, h2⟩ | ⟨h1, h2⟩
          · exact .inl ⟨h1, .later _ _ h2⟩
          · exact .inr ⟨h1, .later _ _ h2⟩
        cases v with
        | leaf l =>
          cases l with
          | name id =>
            rw [renderEntries] at h
            cases hr : renderEntries rest with
            | error e' => rw [hr] at h; cases h; exact hlater _ hr
            | ok s => rw [hr] at h; cases h
          | str t =>
            rw [renderEntries] at h
            cases hr : renderEntries rest with
            | error e' => rw [hr] at h; cases h; exact hlater _ hr
            | ok s => rw [hr] at h; cases h
          | other =>
            rw [renderEntries] at h
            cases h
            exact .inl ⟨rfl, .here _ _⟩
        | dict inner =>
          rw [renderEntries] at h
          cases hi : renderEntries inner with
          | error e' =>
            rw [hi] at h; cases h
            rcases ih inner (by simp at hn; omega) _ hi with ⟨h1, h2⟩ | ⟨h1, h2⟩
            · exact .inl ⟨h1, .inner _ _ _ h2⟩
            · exact .inr ⟨h1, .inner _ _ _ h2⟩
          | ok d =>
            rw [hi] at h
            cases hr : renderEntries rest with
            | error e' => simp only [bind, Except.bind, hr] at h; cases h; exact hlater _ hr
            | ok s => simp only [bind, Except.bind, hr] at h; cases h
        | list xs =>
          rw [renderEntries] at h
          cases hi : renderList xs with
          | error e' =>
            rw [hi] at h; cases h
            obtain ⟨h1, x, hx, h2⟩ := renderList_error xs _ hi
            exact .inr ⟨h1, .here _ _ x _ hx h2⟩
          | ok d =>
            rw [hi] at h
            cases hr : renderEntries rest with
            | error e' => simp only [bind, Except.bind, hr] at h; cases h; exact hlater _ hr
            | ok s => simp only [bind, Except.bind, hr] at h; cases h
  unfold renderDefinition at h
  cases hr : renderEntries es with
  | error e' => rw [hr] at h; cases h; exact key _ es (Nat.lt_succ_self _) _ hr
  | ok s => rw [hr] at h; cases h

example : renderDefinition [("a", .dict [("b", .leaf .other)])] = .error .valueError := by
  simp only [renderDefinition, renderEntries]; rfl

/-! ## C41 -/

/-- C41: what is asked for always is refused with `AttributeError` for an annotated attribute, and with
`NotImplementedError` for a target that is neither a name nor an attribute; nothing else is refused. -/
theorem C41_kind (as : List Assign) (d : Dict String (Option Expr)) (ann : Dict String Expr) (e : PyErr)
    (h : defaultsFrom as d ann = .error e) :
    (e = .attributeError ∧ ∃ a ∈ as, (∃ x, a.target = .attribute x) ∧ a.annotation ≠ none) ∨
    (e = .notImplemented ∧ ∃ a ∈ as, ∃ x, a.target = .other x) := by
  induction as generalizing d ann with
  | nil => cases h
  | cons a as ih =>
    unfold defaultsFrom at h
    cases ha : a.toDefault with
    | ok r =>
      rw [ha] at h
      rcases ih _ _ h with ⟨h1, b, hb, h2⟩ | ⟨h1, b, hb, h2⟩
      · exact .inl ⟨h1, b, List.mem_cons_of_mem _ hb, h2⟩
      · exact .inr ⟨h1, b, List.mem_cons_of_mem _ hb, h2⟩
    | error e' =>
      rw [ha] at h
      cases h
      unfold Assign.toDefault at ha
      cases ht : a.target with
      | name id => rw [ht] at ha; cases ha
      | «attribute» x =>
        rw [ht] at ha
        cases hn : a.annotation with
        | none => rw [hn] at ha; cases ha
        | some y =>
          rw [hn] at ha
          cases ha
          exact .inl ⟨rfl, a, List.mem_cons_self, ⟨x, ht⟩, by rw [hn]; simp⟩
      | other x =>
        rw [ht] at ha
        cases ha
        exact .inr ⟨rfl, a, List.mem_cons_self, x, ht⟩

example : defaultsFrom [⟨.attribute "a.b", some "1", some "int", false, none⟩] .empty .empty = .error .attributeError := rfl

/-! ## C60 -/

mutual
/-- An attribute of something that is not a name is in the annotation. -/
def hasDeep : Ann → Bool
  | .elts items => hasDeepList items
  | .index value => hasDeep value
  | .subscript value slice => hasDeep value || hasDeep slice
  | .attribute (.name _) _ => false
  | .attribute _ _ => true
  | _ => false
/-- The same for several annotations. -/
def hasDeepList : List Ann → Bool
  | [] => false
  | a :: as => hasDeep a || hasDeepList as
end

mutual
/-- Something that is not known is in the annotation, outside of attributes. -/
def hasUnknown : Ann → Bool
  | .elts items => hasUnknownList items
  | .index value => hasUnknown value
  | .subscript value slice => hasUnknown value || hasUnknown slice
  | .other => true
  | _ => false
/-- The same for several annotations. -/
def hasUnknownList : List Ann → Bool
  | [] => false
  | a :: as => hasUnknown a || hasUnknownList as
end

/-- C60: the names of an annotation are refused with `AttributeError` because of an attribute of something that is not a name,
as in `a.b.C`, or with `NotImplementedError` because of something that is not known. -/
theorem C60_kind (a : Ann) (e : PyErr) (h : annNames a = .error e) :
    (e = .attributeError ∧ hasDeep a = true) ∨ (e = .notImplemented ∧ hasUnknown a = true) := by
  have key : ∀ n : Nat, (∀ a : Ann, sizeOf a < n → ∀ e, annNames a = .error e →
        (e = .attributeError ∧ hasDeep a = true) ∨ (e = .notImplemented ∧ hasUnknown a = true)) ∧
      ∀ as : List Ann, sizeOf as < n → ∀ e, annsNames as = .error e →
        (e = .attributeError ∧ hasDeepList as = true) ∨ (e = .notImplemented ∧ hasUnknownList as = true) := by
    intro n
    induction n with
    | zero => exact ⟨fun _ h => by omega, fun _ h => by omega⟩
    | succ n ih =>
      constructor
      · intro a ha e h
        cases a with
        | name id => rw [annNames] at h; cases h
        | elts items =>
          rw [annNames] at h
          rw [hasDeep, hasUnknown]
          exact ih.2 items (by simp at ha; omega) e h
        | index v =>
          rw [annNames] at h
          rw [hasDeep, hasUnknown]
          exact ih.1 v (by simp at ha; omega) e h
        | subscript v s =>
          rw [annNames] at h
          rw [hasDeep, hasUnknown, Bool.or_eq_true, Bool.or_eq_true]
          cases hv : annNames v with
          | error e' =>
            rw [hv] at h; cases h
            rcases ih.1 v (by simp at ha; omega) _ hv with ⟨h1, h2⟩ | ⟨h1, h2⟩
            · exact .inl ⟨h1, .inl h2⟩
            · exact .inr ⟨h1, .inl h2⟩
          | ok x =>
            rw [hv] at h
            cases hs : annNames s with
            | ok y => rw [hs] at h; cases h
            | error e' =>
              rw [hs] at h; cases h
              rcases ih.1 s (by simp at ha; omega) _ hs with ⟨h1, h2⟩ | ⟨h1, h2⟩
              · exact .inl ⟨h1, .inr h2⟩
              · exact .inr ⟨h1, .inr h2⟩
        | «attribute» v x =>
          cases v with
          | name id => rw [annNames] at h; cases h
          | _ =>
            simp only [annNames] at h
            cases h
            exact .inl ⟨rfl, by simp only [hasDeep]⟩
        | str s => rw [annNames] at h; cases h
        | other => rw [annNames] at h; cases h; exact .inr ⟨rfl, by rw [hasUnknown]⟩
      · intro as has e h
        cases as with
        | nil => rw [annsNames] at h; cases h
        | cons a as =>
          rw [annsNames] at h
          rw [hasDeepList, hasUnknownList, Bool.or_eq_true, Bool.or_eq_true]
          cases hv : annNames a with
          | error e' =>
            rw [hv] at h; cases h
            rcases ih.1 a (by simp at has; omega) _ hv with ⟨h1, h2⟩ | ⟨h1, h2⟩
            · exact .inl ⟨h1, .inl h2⟩
            · exact .inr ⟨h1, .inl h2⟩
          | ok x =>
            rw [hv] at h
            cases hs : annsNames as with
            | ok y => rw [hs] at h; cases h
            | error e' =>
              rw [hs] at h; cases h
              rcases ih.2 as (by simp at has; omega) _ hs with ⟨h1, h2⟩ | ⟨h1, h2⟩
              · exact .inl ⟨h1, .inr h2⟩
              · exact .inr ⟨h1, .inr h2⟩
  exact (key (sizeOf a + 1)).1 a (Nat.lt_succ_self _) e h

example : annNames (.attribute (.attribute (.name "a") "b") "C") = .error .attributeError := by simp only [annNames]

/-! ## C71 -/

/-- C71: a module below one that is not found is an `AttributeError`, as is one that is not found itself. -/
theorem C71_missing_parent (imp : Importer) (last b : String) (bs : List String) (h : imp.modules (last :: b :: bs) = none)
    (hp : findSpec imp (b :: bs) = .ok none) : moduleFile imp (last :: b :: bs) = .error .attributeError := by
  unfold moduleFile
  rw [findSpec]
  simp only [h, hp, bind, Except.bind]

example : moduleFile ⟨fun _ => none, fun _ _ => .ok none⟩ ["b", "a"] = .error .attributeError := by
  simp only [moduleFile, findSpec, bind, Except.bind]

/-! ## C73 -/

/-- C73 fails for the parameters that the manager's own calls use: an update by a keyword called like one of the arguments of
`track_post_update` raises `TypeError` after the object has been changed. -/
theorem C73_announced_violated {V : Type} (w : World V) (refresh : String → GM V Unit) (n : Nat) (q : String)
    (values announced : Dict String V) (s : GS V) (o : Dict String V) (ho : s.obj q = some o)
    (hk : ∃ k ∈ RM.trackReserved, k ∈ announced.keys) :
    GM.applyAndRefresh w refresh n q values announced s =
      (.error (.err .typeError), { s with obj := setAt s.obj q (some values) }) := by
  have hc : Conf.clash RM.trackReserved announced = true := by
    cases h : Conf.clash RM.trackReserved announced with
    | true => rfl
    | false =>
      obtain ⟨k, h1, h2⟩ := hk
      exact absurd h2 ((Conf.clash_eq_false_iff _ _).1 h k h1)
  unfold GM.applyAndRefresh
  simp only [M.bind_run, M.get_run, ho, M.modify_run, hc]
  rfl

example : (GS.new (V := Nat)).obj "m.a" = none ∧ ((GM.ops failingWorld 9 [.get "m.a"] GS.new).2.obj "m.a").isSome = true ∧
    ∃ k ∈ RM.trackReserved, k ∈ (Dict.ofList [("d", 7)]).keys := by decide +kernel

/-! ## C76 -/

/-- C76: a string with several imports is refused with `ValueError`, one without an import with `ImportError`. -/
theorem C76_import_kind (lang : Lang) (s : String) (m : Mod) (hm : lang.parse (readLines s) = .ok m) (is : List Imp)
    (hi : m.imports.mapM Imp.ofNode = .ok is) :
    (2 ≤ is.length → importOfStr lang s = .error .valueError) ∧ (is = [] → importOfStr lang s = .error .importError) := by
  have h : importsOfStr lang s = .ok is := by
    unfold importsOfStr
    rw [hm]
    exact hi
  unfold importOfStr objectImportOfStr
  rw [h]
  constructor
  · intro hl
    match is, hl with
    | a :: b :: rest, _ => rfl
  · rintro rfl
    rfl

/-- C76: a string that does not have exactly one assignment is refused with `ValueError`. -/
theorem C76_assignment_kind (lang : Lang) (s : String) (m : Mod) (hm : lang.parse (readLines s) = .ok m) (as : List Assign)
    (ha : m.assigns.mapM Assign.ofNode = .ok as) (hl : as.length ≠ 1) : assignOfStr lang s = .error .valueError := by
  unfold assignOfStr
  rw [hm]
  simp only [bind, Except.bind]
  rw [ha]
  match as, hl with
  | [], _ => rfl
  | a :: b :: rest, _ => rfl

example : assignOfStr toy "" = .error .valueError := by decide +kernel

/-! ## C83 -/

theorem EmptyObj.bindParams_error {V : Type} (named : List String) (d : Dict String V) :
    ∀ (ps : List (String × Option V)) (e : PyErr), InitSig.bindParams named d ps = .error e → e = .typeError
  | [], e, h => by cases h
  | (x, dflt) :: rest, e, h => by
    unfold InitSig.bindParams at h
    split at h
    · cases h; rfl
    · cases hr : InitSig.bindParams named d rest with
      | error e' => rw [hr] at h; cases h; exact bindParams_error named d rest _ hr
      | ok v => rw [hr] at h; cases h

/-- C83: a class that does not accept the arguments refuses them with `TypeError`. -/
theorem C83_kind {V : Type} (s : InitSig V) (d : Dict String V) (e : PyErr) (h : s.bind d = .error e) : e = .typeError := by
  unfold InitSig.bind at h
  split at h
  · cases h; rfl
  split at h
  · cases h; rfl
  split at h
  · cases h; rfl
  cases hb : InitSig.bindParams s.byName d s.params with
  | error e' => rw [hb] at h; cases h; exact EmptyObj.bindParams_error _ _ _ _ hb
  | ok v => rw [hb] at h; cases h

example : (⟨0, ["self", "name"], [], [], [], false, false⟩ : InitSig String).bind Dict.empty = .error .typeError := by
  decide +kernel

/-! ## Blank lines of config files, for C41 to C43 -/

/-- The characters that Python takes for white space. -/
theorem pySpace_iff (c : Char) : pySpace c = true ↔ c.toNat ∈
    [9, 10, 11, 12, 13, 28, 29, 30, 31, 32, 133, 160, 5760, 8192, 8193, 8194, 8195, 8196, 8197, 8198, 8199, 8200, 8201, 8202, 8232,
      8233, 8239, 8287, 12288] := by
  unfold pySpace
  simp only [decide_eq_true_eq, List.mem_cons, List.not_mem_nil, or_false]
  omega

end Verif.Props
