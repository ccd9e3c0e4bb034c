import Verif.Props.FilesToy
import Verif.Props.NewItem

/-
A small Python for which the laws used in `Props/NewItem.lean` hold, a function for which C91 holds, and the functions for which
it fails.
-/

namespace Verif.Props
open Verif.Py Verif.Model

/-! ### The small Python -/

/-- What an import gives; values are written as texts. -/
def toyThing : Thing → String
  | .module m => "module " ++ m
  | .member _ m o => m.getD "" ++ "." ++ o

/-- Expressions: `None`, `dict()`, `Selector()`, digits, and names. -/
def toyEval (e : Expr) (env : Dict String String) : Except PyErr String :=
  if e = "None" then .ok "None"
  else if e = "dict()" then .ok "{}"
  else if e = "Selector()" then match env.get? "Selector" with
    | some v => .ok (v ++ "()")
    | none => .error (.userError 0)
  else if e.toList.all Char.isDigit then .ok e
  else match env.get? e with
    | some v => .ok v
    | none => .error (.userError 0)

def toyCTarget : Target → CTarget
  | .name x => .name x
  | _ => .place

def toyAssignStmt : AssignNode → CStmt String
  | .assign ts v => .assign (ts.map toyCTarget) (toyEval v)
  | .ann x a (some v) => .annotated (toyCTarget x) (some (fun env => do
      let r ← toyEval v env
      let _ ← toyEval a env
      return r))
  | .ann x _ none => .annotated (toyCTarget x) none

/-- The statements of what is on one line. -/
def toyModStmts (m : Mod) : List (CStmt String) :=
  m.imports.map (fun n => .bring ((provides n).map (fun p => (p.1, toyThing p.2)))) ++ m.assigns.map toyAssignStmt

/-- The statements of all lines. -/
def toyStmts : List String → Except PyErr (List (CStmt String))
  | [] => .ok []
  | l :: ls => match toyLine l, toyStmts ls with
    | .ok m, .ok n => .ok (toyModStmts m ++ n)
    | _, _ => .error .syntaxError

/-- The source of an annotation that is a name. -/
def toyAnnSrc : Ann → Expr
  | .name x => x
  | _ => "None"

def toyTools : Tools String :=
  ⟨distinct, fun x => x == "int" || x == "str", toyAnnSrc, toy, toyStmts,
    ⟨fun _ _ => .error .typeError, Dict.ofList [("__name__", "f"), ("int", "int"), ("str", "str")], fun v => startsWith v "module "⟩⟩

theorem toyStmts_append {a b : List String} {m n : List (CStmt String)} (ha : toyStmts a = .ok m) (hb : toyStmts b = .ok n) :
    toyStmts (a ++ b) = .ok (m ++ n) := by
  induction a generalizing m with
  | nil => cases ha; simpa using hb
  | cons l a ih =>
    rw [toyStmts] at ha
    rw [List.cons_append, toyStmts]
    cases hl : toyLine l with
    | error e => rw [hl] at ha; cases ha
    | ok x =>
      cases hla : toyStmts a with
      | error e => rw [hl, hla] at ha; cases ha
      | ok y =>
        rw [hl, hla] at ha
        cases ha
        rw [ih hla]
        simp

theorem toyStmts_one {l : String} {m : Mod} (h : toyLine l = .ok m) : toyStmts [l] = .ok (toyModStmts m) := by
  rw [toyStmts, h]
  simp [toyStmts]

theorem toyLine_of_parse {l : String} {m : Mod} (h : toyParse [l] = .ok m) : toyLine l = .ok m := by
  rw [toyParse] at h
  cases hl : toyLine l with
  | error e => rw [hl] at h; cases h
  | ok x =>
    rw [hl] at h
    cases h
    simp [Model.Mod.append]

theorem toyTools_stmts : toyTools.stmts = toyStmts := rfl

theorem toyStmts_blank : toyStmts [""] = .ok [] := by
  rw [toyStmts_one (l := "") (m := ⟨[], []⟩) (by decide +kernel)]
  rfl

theorem toyStmts_selector : toyStmts ["s = Selector()"] = .ok [.assign [.name "s"] (toyEval "Selector()")] := by
  rw [toyStmts_one (l := "s = Selector()") (m := ⟨[], [.assign [.name "s"] "Selector()"]⟩) (by decide +kernel)]
  rfl

theorem toy_means : TextMeans toyTools ToyOk ToyIm toyEval toyThing := by
  constructor
  · rw [toyTools_stmts]; rfl
  · rw [toyTools_stmts]; exact toyStmts_blank
  · rw [toyTools_stmts]; exact fun _ _ _ _ ha hb => toyStmts_append ha hb
  · rw [toyTools_stmts]; exact toyStmts_selector
  · intro i hi
    rw [toyTools_stmts, toyStmts_one (toyLine_of_parse (toy_lawful.imports i hi).1)]
    rfl
  · intro x v h
    have hl : toyTools.lang.source (.name x) none (some v) = [join ' ' [x, "=", v]] := rfl
    rw [toyTools_stmts, hl, toyStmts_one (toyLine_of_parse (toy_lawful.assign x none v h))]
    rfl
  · intro x a v h
    have hl : toyTools.lang.source (.name x) (some a) (some v) = [join ' ' [x, ":", a, "=", v]] := rfl
    rw [toyTools_stmts, hl, toyStmts_one (toyLine_of_parse (toy_lawful.assign x (some a) v h))]
    rfl

/-- The names and values in the arguments. -/
def toyArguments (f : FunctionSource) (sig : Sig) : Except PyErr (List (String × String)) :=
  (newArguments toyTools f ⟨.func, sig, fun _ => .error .typeError, fun _ => .error .typeError, fun _ => .error .typeError,
    fun _ => .error .typeError⟩).map Dict.items

/-- A name of the small Python. -/
def toyName (x : String) : Bool :=
  x != "None" && x != "dict()" && x != "Selector()" && ! x.toList.all Char.isDigit

theorem toyEval_name {x : String} (h : toyName x = true) (env : Dict String String) :
    toyEval x env = match env.get? x with
      | some v => .ok v
      | none => .error (.userError 0) := by
  simp only [toyName, Bool.and_eq_true, bne_iff_ne, ne_eq, Bool.not_eq_true'] at h
  obtain ⟨⟨⟨h1, h2⟩, h3⟩, h4⟩ := h
  unfold toyEval
  rw [if_neg h1, if_neg h2, if_neg h3, if_neg (by simp [h4])]

/-- The function can be evaluated: its defaults are numbers or names of the module, its annotations names of the module. -/
def toyDefined (menv : Dict String String) (f : FunctionSource) : Bool :=
  (keywordParams f.args).all (fun p =>
    (match p.2 with
    | none => true
    | some v => v.src == "None" || (v.src != "dict()" && v.src != "Selector()" && v.src.toList.all Char.isDigit) ||
        (v.names == [v.src] && toyName v.src && menv.contains v.src)) &&
    match p.1.annotation with
    | none => true
    | some (.name x) => toyName x && menv.contains x && (! toyTools.builtin x || toyTools.py.init.contains x)
    | some _ => false)

theorem toy_evaluates {menv : Dict String String} {f : FunctionSource} (h : toyDefined menv f = true) :
    Evaluates toyTools toyEval toyThing "None" menv f := by
  unfold toyDefined at h
  rw [List.all_eq_true] at h
  have hd : ∀ p ∈ keywordParams f.args, ∀ v, p.2 = some v → (∃ r, ∀ env, toyEval v.src env = .ok r) ∨
      (v.names = [v.src] ∧ toyName v.src = true ∧ (menv.get? v.src).isSome = true) := by
    intro p hp v hv
    have := h p hp
    rw [hv] at this
    dsimp only at this
    rw [Bool.and_eq_true] at this
    have := this.1
    simp only [Bool.or_eq_true, Bool.and_eq_true, beq_iff_eq, bne_iff_ne, ne_eq] at this
    rcases this with (h1 | ⟨⟨h1, h2⟩, h3⟩) | ⟨⟨h1, h2⟩, h3⟩
    · exact .inl ⟨"None", fun env => by unfold toyEval; rw [if_pos h1]⟩
    · by_cases hn : v.src = "None"
      · exact .inl ⟨"None", fun env => by unfold toyEval; rw [if_pos hn]⟩
      · exact .inl ⟨v.src, fun env => by unfold toyEval; rw [if_neg hn, if_neg h1, if_neg h2, if_pos h3]⟩
    · exact .inr ⟨h1, h2, h3⟩
  constructor
  · intro p hp v hv env env' henv
    rcases hd p hp v hv with ⟨r, hr⟩ | ⟨h1, h2, _⟩
    · rw [hr, hr]
    · rw [toyEval_name h2, toyEval_name h2, henv v.src (by rw [h1]; exact List.mem_singleton_self _)]
  · intro p hp v hv
    rcases hd p hp v hv with ⟨r, hr⟩ | ⟨h1, h2, h3⟩
    · exact ⟨r, hr menv⟩
    · obtain ⟨r, hr⟩ := Option.isSome_iff_exists.1 h3
      exact ⟨r, by rw [toyEval_name h2, hr]⟩
  · intro env
    rfl
  · intro env henv
    refine ⟨toyThing selectorThing ++ "()", ?_⟩
    unfold toyEval
    rw [if_neg (by decide), if_neg (by decide), if_pos rfl, henv]
  · intro p hp ty hty env henv
    have := h p hp
    rw [hty, Bool.and_eq_true] at this
    have := this.2
    cases ty with
    | name x =>
      simp only [Bool.and_eq_true, Bool.or_eq_true, Bool.not_eq_true'] at this
      obtain ⟨⟨h1, h2⟩, h3⟩ := this
      show ∃ r, toyEval x env = .ok r
      rw [toyEval_name h1]
      have hx := henv x (by simp [unquoted, rootNames])
      have hsome : (env.get? x).isSome = true := by
        rcases hx with hx | ⟨hb, hx⟩
        · rw [hx]; exact h2
        · rw [hx]
          rcases h3 with h3 | h3
          · rw [hb] at h3; cases h3
          · exact h3
      obtain ⟨r, hr⟩ := Option.isSome_iff_exists.1 hsome
      exact ⟨r, by rw [hr]⟩
    | _ => cases this

/-- `from consts import b`, `from kinds import T`, `def f(a: int = b, c=3, *, d: T = 4)`. -/
def plainFunction : FunctionSource :=
  ⟨"f", ⟨[], [⟨"a", some (.name "int")⟩, ⟨"c", none⟩], [⟨"b", ["b"]⟩, ⟨"3", []⟩], [⟨"d", some (.name "T")⟩], [some ⟨"4", []⟩]⟩,
    [⟨some "consts", ["b"], [], false⟩, ⟨some "kinds", ["T"], [], false⟩], [], "m"⟩

example : toyArguments plainFunction ⟨["a", "c"], ["d"], ["d"]⟩ = .ok [("a", "consts.b"), ("c", "3"), ("d", "4")] := by
  decide +kernel

/-- The module of `plainFunction`. -/
def plainModule : Dict String String := Dict.ofList [("b", "consts.b"), ("T", "kinds.T"), ("int", "int")]

theorem plainFunction_params : keywordParams plainFunction.args = [(⟨"a", some (.name "int")⟩, some ⟨"b", ["b"]⟩),
    (⟨"c", none⟩, some ⟨"3", []⟩), (⟨"d", some (.name "T")⟩, some ⟨"4", []⟩)] := rfl

theorem plainFunction_imports : PlainImports toyTools.builtin plainFunction toyThing plainModule where
  read := by
    intro j hj
    simp only [plainFunction, List.mem_cons, List.not_mem_nil, or_false] at hj
    rcases hj with rfl | rfl
    · exact ⟨.from_ (some "consts") 0 [("b", none)], ⟨false, rfl⟩, by unfold Clean; decide⟩
    · exact ⟨.from_ (some "kinds") 0 [("T", none)], ⟨false, rfl⟩, by unfold Clean; decide⟩
  once := by
    intro j hj r hr
    simp only [plainFunction, List.mem_cons, List.not_mem_nil, or_false] at hj
    rcases hj with rfl | rfl <;> cases hr
  bound := by
    intro x th _ hx
    have : provided plainFunction.imports = [("b", .member 0 (some "consts") "b"), ("T", .member 0 (some "kinds") "T")] := rfl
    rw [this] at hx
    simp only [List.mem_cons, List.not_mem_nil, or_false, Prod.mk.injEq] at hx
    rcases hx with ⟨rfl, rfl⟩ | ⟨rfl, rfl⟩ <;> decide
  unassigned := fun _ _ => rfl
  selector := by
    rintro (⟨p, hp, v, hv, hx⟩ | ⟨p, hp, ty, hty, hx, _⟩) <;> rw [plainFunction_params] at hp <;>
      simp only [List.mem_cons, List.not_mem_nil, or_false] at hp <;> rcases hp with rfl | rfl | rfl
    · cases hv; revert hx; decide
    · cases hv; revert hx; decide
    · cases hv; revert hx; decide
    · cases hty; revert hx; decide
    · cases hty
    · cases hty; revert hx; decide

/-- C91 is about this function: all that is asked of it holds. -/
example : SetList toyTools.setList ∧ Lawful toyTools.lang ToyOk ToyIm ∧ TextMeans toyTools ToyOk ToyIm toyEval toyThing ∧
    Valid plainFunction.args ∧ PlainImports toyTools.builtin plainFunction toyThing plainModule ∧
    Evaluates toyTools toyEval toyThing "None" plainModule plainFunction ∧ Unshadowed plainFunction.args ∧
    Signature plainFunction.args ⟨["a", "c"], ["d"], ["d"]⟩ := by
  refine ⟨distinct_setList, toy_lawful, toy_means, ⟨by decide, rfl, by decide⟩, plainFunction_imports, toy_evaluates (by decide +kernel),
    ?_, rfl, rfl, rfl⟩
  intro pre p post h x hx
  rw [plainFunction_params] at h
  match pre, h with
  | [], h =>
    cases h
    rcases hx with ⟨v, hv, hx⟩ | ⟨ty, hty, hx⟩
    · cases hv; simp only [List.mem_cons, List.not_mem_nil, or_false] at hx <;> subst hx <;> decide
    · cases hty; simp only [unquoted, rootNames, List.mem_cons, List.not_mem_nil, or_false] at hx; subst hx; decide
  | [_], h =>
    cases h
    rcases hx with ⟨v, hv, hx⟩ | ⟨ty, hty, hx⟩
    · cases hv; simp only [List.mem_cons, List.not_mem_nil, or_false] at hx <;> subst hx <;> decide
    · cases hty
  | [_, _], h =>
    cases h
    rcases hx with ⟨v, hv, hx⟩ | ⟨ty, hty, hx⟩
    · cases hv; simp only [List.mem_cons, List.not_mem_nil, or_false] at hx <;> subst hx <;> decide
    · cases hty; simp only [unquoted, rootNames, List.mem_cons, List.not_mem_nil, or_false] at hx; subst hx; decide
  | _ :: _ :: _ :: _, h => simp at h

/-! ### Functions for which C91 fails -/

/-- C91 fails for `from consts import b`, `def f(b=1, a=b)`: in the config file `b` is assigned before `a`, so that `a` is `1`. -/
theorem C91_shadow_violated :
    ∃ (f : FunctionSource) (menv : Dict String String) (p : Arg × Option Default), p ∈ keywordParams f.args ∧ p.1.name = "a" ∧
      Valid f.args ∧ provided f.imports = [("b", .member 0 (some "consts") "b")] ∧ menv.get? "b" = some "consts.b" ∧
      Evaluates toyTools toyEval toyThing "None" menv f ∧ ownValue toyEval "None" menv p = .ok "consts.b" ∧
      toyArguments f ⟨["b", "a"], [], []⟩ = .ok [("b", "1"), ("a", "1")] :=
  ⟨⟨"f", ⟨[], [⟨"b", none⟩, ⟨"a", none⟩], [⟨"1", []⟩, ⟨"b", ["b"]⟩], [], []⟩, [⟨some "consts", ["b"], [], false⟩], [], "m"⟩,
    Dict.ofList [("b", "consts.b")], (⟨"a", none⟩, some ⟨"b", ["b"]⟩), List.mem_cons_of_mem _ List.mem_cons_self, rfl,
    ⟨by decide, rfl, by decide⟩, rfl, rfl, toy_evaluates (by decide +kernel), rfl, by decide +kernel⟩

/-- C91 fails for `from consts import s`, `def f(a=s)`: in the config file `s` is the selector. -/
theorem C91_selector_name_violated :
    ∃ (f : FunctionSource) (menv : Dict String String) (p : Arg × Option Default), p ∈ keywordParams f.args ∧ p.1.name = "a" ∧
      Valid f.args ∧ provided f.imports = [("s", .member 0 (some "consts") "s")] ∧ menv.get? "s" = some "consts.s" ∧
      Evaluates toyTools toyEval toyThing "None" menv f ∧ ownValue toyEval "None" menv p = .ok "consts.s" ∧
      toyArguments f ⟨["a"], [], []⟩ = .ok [("a", "pyfileconf.Selector()")] :=
  ⟨⟨"f", ⟨[], [⟨"a", none⟩], [⟨"s", ["s"]⟩], [], []⟩, [⟨some "consts", ["s"], [], false⟩], [], "m"⟩,
    Dict.ofList [("s", "consts.s")], (⟨"a", none⟩, some ⟨"s", ["s"]⟩), List.mem_cons_self, rfl,
    ⟨by decide, rfl, by decide⟩, rfl, rfl, toy_evaluates (by decide +kernel), rfl, by decide +kernel⟩

/-- C91 fails for `from consts import x as y`, `from consts import x`, `def f(a=y, b=x)`: one import is taken to cover the other, and
the config file cannot be executed. -/
theorem C91_renamed_violated :
    ∃ (f : FunctionSource) (menv : Dict String String), Valid f.args ∧ Unshadowed f.args ∧
      provided f.imports = [("y", .member 0 (some "consts") "x"), ("x", .member 0 (some "consts") "x")] ∧
      menv.get? "x" = some "consts.x" ∧ menv.get? "y" = some "consts.x" ∧
      Evaluates toyTools toyEval toyThing "None" menv f ∧ toyArguments f ⟨["a", "b"], [], []⟩ = .error (.userError 0) := by
  refine ⟨⟨"f", ⟨[], [⟨"a", none⟩, ⟨"b", none⟩], [⟨"y", ["y"]⟩, ⟨"x", ["x"]⟩], [], []⟩,
    [⟨some "consts", ["x"], [⟨"x", "y"⟩], false⟩, ⟨some "consts", ["x"], [], false⟩], [], "m"⟩,
    Dict.ofList [("x", "consts.x"), ("y", "consts.x")], ⟨by decide, rfl, by decide⟩, ?_, rfl, rfl, rfl,
    toy_evaluates (by decide +kernel), by decide +kernel⟩
  intro pre p post h x hx
  have hk : keywordParams ⟨[], [⟨"a", none⟩, ⟨"b", none⟩], [⟨"y", ["y"]⟩, ⟨"x", ["x"]⟩], [], []⟩ =
    [(⟨"a", none⟩, some ⟨"y", ["y"]⟩), (⟨"b", none⟩, some ⟨"x", ["x"]⟩)] := rfl
  dsimp only at h
  rw [hk] at h
  match pre, h with
  | [], h =>
    cases h
    rcases hx with ⟨v, hv, hx⟩ | ⟨ty, hty, hx⟩
    · cases hv; simp only [List.mem_cons, List.not_mem_nil, or_false] at hx <;> subst hx <;> decide
    · cases hty
  | [_], h =>
    cases h
    rcases hx with ⟨v, hv, hx⟩ | ⟨ty, hty, hx⟩
    · cases hv; simp only [List.mem_cons, List.not_mem_nil, or_false] at hx <;> subst hx <;> decide
    · cases hty
  | _ :: _ :: _, h => simp at h

/-- C91 fails for functions called `DataPipeline` with a parameter `cleanup_kwargs=None`, which is given a dictionary. -/
theorem C91_pipeline_name_violated :
    ∃ (f : FunctionSource) (p : Arg × Option Default), p ∈ keywordParams f.args ∧ p.1.name = "cleanup_kwargs" ∧
      f.name = "DataPipeline" ∧ Valid f.args ∧ Evaluates toyTools toyEval toyThing "None" .empty f ∧
      ownValue toyEval "None" .empty p = .ok "None" ∧
      toyArguments f ⟨["cleanup_kwargs"], [], []⟩ = .ok [("cleanup_kwargs", "{}")] :=
  ⟨⟨"DataPipeline", ⟨[], [⟨"cleanup_kwargs", none⟩], [⟨"None", []⟩], [], []⟩, [], [], "m"⟩,
    (⟨"cleanup_kwargs", none⟩, some ⟨"None", []⟩), List.mem_cons_self, rfl, rfl, ⟨by decide, rfl, by decide⟩,
    toy_evaluates (by decide +kernel), rfl, by decide +kernel⟩

end Verif.Props
