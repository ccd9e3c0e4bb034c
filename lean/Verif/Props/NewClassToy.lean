import Verif.Props.NewItemToy
import Verif.Props.NewClass

/-
A class and an object for which C91 holds, in the small Python of `Props/NewItemToy.lean`, and a class for which it fails.
-/

namespace Verif.Props
open Verif.Py Verif.Model

/-- `class f: def __init__(self, ...)` with the parameters of `plainFunction`. -/
def plainClass (self : String) : FunctionSource :=
  { plainFunction with args := { plainFunction.args with args := ⟨self, none⟩ :: plainFunction.args.args } }

/-- A class that can be instantiated with everything. -/
def anyClass (kind : CKind) (self : String) : Callable String :=
  ⟨kind, ⟨[self, "a", "c"], ["d"], ["d"]⟩, fun _ => .ok "", fun _ => .ok (), fun _ => .ok (), fun _ => .ok ""⟩

/-- The arguments of an instance or object. -/
def madeWith (r : Except PyErr (Obj String)) : Except PyErr (List (String × String)) := r.map (fun o => o.kwargs.items)

example : madeWith (newInstance toyTools (plainClass "self") (anyClass .klass "self") 0) =
    .ok [("a", "consts.b"), ("c", "3"), ("d", "4")] := by decide +kernel

example : madeWith (newInstance toyTools (plainClass "s") (anyClass .klass "s") 0) = .error .typeError := by decide +kernel

example : madeWith (newObject toyTools (plainClass "self") "77" "c" "77" (anyClass .specific "self") 0) =
    .ok [("a", "consts.b"), ("c", "77"), ("d", "4")] := by decide +kernel

theorem toy_lawfulTools : LawfulTools toyTools ToyOk ToyIm toyEval toyThing "None" :=
  ⟨distinct_setList, toy_lawful, toy_means, rfl, by decide⟩

theorem plainFunction_unshadowed : Unshadowed plainFunction.args := by
  intro pre p post h x hx
  rw [plainFunction_params] at h
  match pre, h with
  | [], h =>
    cases h
    rcases hx with ⟨v, hv, hx⟩ | ⟨ty, hty, hx⟩
    · cases hv; simp only [List.mem_cons, List.not_mem_nil, or_false] at hx <;> subst hx <;> decide
    · cases hty; simp only [unquoted, rootNames, List.mem_cons, List.not_mem_nil, or_false] at hx; subst hx; decide
  | [_], h =>
    cases h
    rcases hx with ⟨v, hv, hx⟩ | ⟨ty, hty, hx⟩
    · cases hv; cases hx
    · cases hty
  | [_, _], h =>
    cases h
    rcases hx with ⟨v, hv, hx⟩ | ⟨ty, hty, hx⟩
    · cases hv; cases hx
    · cases hty; simp only [unquoted, rootNames, List.mem_cons, List.not_mem_nil, or_false] at hx; subst hx; decide
  | _ :: _ :: _ :: _, h => simp at h

/-- C91 fails for a class with `def __init__(s, ...)`. -/
theorem C91_self_name_violated : ∃ (f : FunctionSource) (k : Callable String), f.args.args.head? = some ⟨"s", none⟩ ∧
    Signature f.args k.sig ∧ k.kind = .klass ∧ Valid (withoutSelf f).args ∧ Unshadowed (withoutSelf f).args ∧
    PlainImports toyTools.builtin (withoutSelf f) toyThing plainModule ∧
    Evaluates toyTools toyEval toyThing "None" plainModule (withoutSelf f) ∧
    madeWith (newInstance toyTools f k 0) = .error .typeError :=
  ⟨plainClass "s", anyClass .klass "s", rfl, ⟨rfl, rfl, rfl⟩, rfl, ⟨by decide, rfl, by decide⟩, plainFunction_unshadowed,
    plainFunction_imports, toy_evaluates (by decide +kernel), by decide +kernel⟩

theorem toyIm_plain (m n : String) (b : Bool) (hm : PlainImportName m) (hn : PlainImportName n)
    (h : hasChar '\n' (Imp.str ⟨some m, [n], [], b⟩) = false) : ToyIm ⟨some m, [n], [], b⟩ := by
  refine ⟨⟨⟨by simp, ?_⟩, ?_, ?_⟩, h⟩
  · intro x hx
    rw [List.mem_singleton] at hx
    exact hx ▸ hn
  · intro r hr
    cases hr
  · intro x hx
    cases hx
    exact hm

/-- C91 is about these: all that is asked of a class and of an object holds. -/
example (self : String) : LawfulTools toyTools ToyOk ToyIm toyEval toyThing "None" ∧
    ∃ c, PlainSource toyTools ToyOk ToyIm toyEval toyThing "None" plainModule (withoutSelf (plainClass self)) c := by
  refine ⟨toy_lawfulTools, ?_⟩
  have he : withoutSelf (plainClass self) = plainFunction := rfl
  rw [he]
  have hc : ∃ c, functionCfg toyTools.setList toyTools.builtin toyTools.annSrc false plainFunction.args plainFunction.imports
      plainFunction.assigns plainFunction.module = .ok c ∧ c.imports = [⟨some "consts", ["b"], [], false⟩, ⟨some "kinds", ["T"], [], false⟩] :=
    ⟨_, rfl, by decide +kernel⟩
  obtain ⟨c, hc, hi⟩ := hc
  refine ⟨c, ⟨by decide, rfl, by decide⟩, rfl, hc, ?_, plainFunction_imports, toy_evaluates (by decide +kernel),
    plainFunction_unshadowed, ?_⟩
  · rw [hi]
    intro i hm
    simp only [List.mem_cons, List.not_mem_nil, or_false] at hm
    rcases hm with rfl | rfl | rfl <;> exact toyIm_plain _ _ _ (by unfold PlainImportName; decide) (by unfold PlainImportName; decide)
      (by decide +kernel)
  · intro p hp
    rw [plainFunction_params] at hp
    simp only [List.mem_cons, List.not_mem_nil, or_false] at hp
    rcases hp with rfl | rfl | rfl <;> intro h <;> cases h

end Verif.Props
