import Verif.Props.FileUse

/-
C112 for config files whose code resets the context (`pyfileconf/pmcontext/main.py`: `PyFileConfContext.reset`) while they are executed.
-/

namespace Verif.Props
open Verif.Py Verif.Model

/-- The load of a file whose code does something, resets the context and goes on. -/
def loadWithReset (file : String) (before after : List Act) : XM Unit :=
  XM.tracked (.ok ⟨file, .load .execute⟩) (do Act.execs before; M.modify Ctx.reset; Act.execs after)

theorem loadWithReset_eq (c : Ctx) (file : String) (before after : List Act)
    (hb : (Act.execs before (Ctx.inside c ⟨file, .load .execute⟩)).1 = .ok ()) :
    loadWithReset file before after c =
      (.error .indexError, (Act.execs after (Act.execs before (Ctx.inside c ⟨file, .load .execute⟩)).2.reset).2) := by
  have e : (do Act.execs before; M.modify Ctx.reset; Act.execs after : XM Unit) (Ctx.inside c ⟨file, .load .execute⟩) =
      Act.execs after (Act.execs before (Ctx.inside c ⟨file, .load .execute⟩)).2.reset := by
    rw [M.bind_ok (show Act.execs before (Ctx.inside c ⟨file, .load .execute⟩) = (.ok (), _) from by rw [← hb])]
    rfl
  have hs := (execs_changed after (Act.execs before (Ctx.inside c ⟨file, .load .execute⟩)).2.reset).stack
  unfold loadWithReset XM.tracked
  show (match (do Act.execs before; M.modify Ctx.reset; Act.execs after : XM Unit) (Ctx.inside c ⟨file, .load .execute⟩) with
    | (r, c') => match c'.stack with
      | [] => (.error .indexError, c')
      | _ :: _ => (r, { c' with stack := c'.stack.dropLast }) : Except PyErr Unit × Ctx) = _
  rw [e]
  generalize Act.execs after (Act.execs before (Ctx.inside c ⟨file, .load .execute⟩)).2.reset = x at hs ⊢
  obtain ⟨r, c'⟩ := x
  simp only at hs ⊢
  rw [hs]
  rfl

/-- C112 fails for a file whose code resets the context, for all contexts and whatever it does before and after: what was recorded is
lost, for this file and for all others; what is used afterwards is not recorded for the file, but only for the items run and the files
executed in what is done afterwards; and the load ends with an `IndexError`, although the code did not raise it. -/
theorem C112_reset_violated (c : Ctx) (file : String) (before after : List Act)
    (hb : (Act.execs before (Ctx.inside c ⟨file, .load .execute⟩)).1 = .ok ()) :
    (loadWithReset file before after c).1 = .error .indexError ∧
    (loadWithReset file before after c).2.stack = [] ∧
    (∀ d o, (o, d) ∈ (loadWithReset file before after c).2.deps → ∃ a ∈ after, ∃ b, Uses ⟨none, none⟩ a d o b) ∧
    (∀ d o, (o, d) ∈ (loadWithReset file before after c).2.forced → ∃ a ∈ after, Uses ⟨none, none⟩ a d o true) := by
  rw [loadWithReset_eq c file before after hb]
  have hc := execs_changed after (Act.execs before (Ctx.inside c ⟨file, .load .execute⟩)).2.reset
  refine ⟨rfl, hc.stack, fun d o h => ?_, fun d o h => ?_⟩
  · rcases hc.deps (o, d) h with h | ⟨⟨b, a, ha, hu⟩, -⟩
    · cases h
    · exact ⟨a, ha, b, hu⟩
  · rcases hc.forced (o, d) h with h | ⟨a, ha, hu⟩
    · cases h
    · exact ⟨a, ha, hu⟩

/-- C112. So nothing at all is on record if the code only uses views afterwards. -/
theorem C112_reset_nothing (c : Ctx) (file : String) (before after : List Act)
    (hb : (Act.execs before (Ctx.inside c ⟨file, .load .execute⟩)).1 = .ok ())
    (ha : ∀ a ∈ after, ∃ p, a = .select p ∨ a = .realItem p [] ∨ a = .usedView p) :
    (loadWithReset file before after c).2.deps = [] ∧ (loadWithReset file before after c).2.forced = [] := by
  obtain ⟨-, -, h1, h2⟩ := C112_reset_violated c file before after hb
  have none_ : ∀ a ∈ after, ∀ d o b, ¬ Uses ⟨none, none⟩ a d o b := by
    intro a hm d o b hu
    obtain ⟨p, rfl | rfl | rfl⟩ := ha a hm
    · cases hu with | select h => cases h
    · cases hu with
      | real h => cases h
      | inReal h _ => cases h
    · cases hu with | view h => cases h
  refine ⟨List.eq_nil_iff_forall_not_mem.2 ?_, List.eq_nil_iff_forall_not_mem.2 ?_⟩
  · rintro ⟨o, d⟩ h
    obtain ⟨a, hm, b, hu⟩ := h1 d o h
    exact none_ a hm d o b hu
  · rintro ⟨o, d⟩ h
    obtain ⟨a, hm, hu⟩ := h2 d o h
    exact none_ a hm d o true hu

/-- The file uses a view, which without the reset is recorded, and then another one; an item that is run afterwards still gets its record. -/
example : ((Act.load (.ok "m.a") .execute [.realItem "m.b" []]).exec Ctx.new).2.deps = [("m.b", "m.a")] ∧
    (loadWithReset "m.a" [.realItem "m.b" []] [.realItem "m.d" []] Ctx.new).2.deps = [] ∧
    (loadWithReset "m.a" [.realItem "m.b" []] [.run "m.e" [.usedView "m.d"]] Ctx.new).2.deps = [("m.d", "m.e")] ∧
    (Act.execs [.realItem "m.b" []] (Ctx.inside Ctx.new ⟨"m.a", .load .execute⟩)).1 = .ok () := by
  refine ⟨?_, ?_, ?_, ?_⟩ <;> rfl

end Verif.Props
