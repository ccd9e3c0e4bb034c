import Verif.Model.Recorded
import Verif.Props.SectionPath
import Verif.Props.Tree
import Verif.Props.Runner

/-
Property theorems about refreshing config files by the path recorded for them: C72.
-/

namespace Verif.Props
open Verif.Py Verif.Model

variable {V : Type}

/-- The names in a path are names of files, without dots. -/
def PathNames (p : List String) : Prop := p ≠ [] ∧ ∀ x ∈ p, FileName x ∧ hasChar '.' x = false

theorem sections_fromList {p : List String} (h : p ≠ []) (hd : ∀ x ∈ p, hasChar '.' x = false) :
    (SectionPath.fromSectionStrList p).sections = p := by
  unfold SectionPath.fromSectionStrList SectionPath.sections
  exact split_join '.' h hd

theorem recordedPath_eq {cwd base name : String} {l : FileLoc} (hcwd : Path.isAbs cwd = true) (hl : PathNames l.below) :
    recordedPath cwd base name l = .ok (SectionPath.joinSP ⟨name⟩ (SectionPath.fromSectionStrList l.below)) := by
  have hs := sections_fromList hl.1 (fun x hx => (hl.2 x hx).2)
  unfold recordedPath FileLoc.filePath
  rw [C03_file_round_trip_py cwd base hcwd _ (by rw [hs]; exact fun x hx => (hl.2 x hx).1)]

theorem refreshRecorded_eq [BEq V] {name : String} (hn : hasChar '.' name = false) {p : List String} (hne : p ≠ [])
    (hp : ∀ x ∈ p, hasChar '.' x = false) :
    refreshRecorded (V := V) (SectionPath.joinSP ⟨name⟩ (SectionPath.fromSectionStrList p)) = RM.refresh p := by
  unfold refreshRecorded SectionPath.tail
  rw [SectionPath.sections_joinSP, sections_fromList hne hp]
  have : (SectionPath.mk name).sections = [name] := by
    have := sections_fromList (p := [name]) (by simp) (by simpa using hn)
    simpa [SectionPath.fromSectionStrList, join, joinL] using this
  rw [this]
  simp only [List.cons_append, List.nil_append, List.drop_succ_cons, List.drop_zero]
  rw [sections_fromList hne hp]

/-- C72 (missing: the files of sections, for which it fails, see `C72_section_violated`): while the file of an item is executed,
in any state a manager can be in, the path recorded for it is the manager's name followed by the section path of the item, and
refreshing that path is refreshing the item, whose config was read from that file. -/
theorem C72_item_partial [BEq V] (cwd base name : String) (hcwd : Path.isAbs cwd = true) (hn : hasChar '.' name = false)
    (s : RS V) (hs : s.Reachable) (p : List String) (hp : ConfigItem s.cm p) (hnames : PathNames p) :
    ∃ sp, recordedPath cwd base name (.item p) = .ok sp ∧ sp.sections = name :: p ∧
      refreshRecorded sp s = RM.refresh p s ∧
      ∀ c, ownConfig s.cm p = .ok c → c.file = some (.item p) := by
  refine ⟨_, recordedPath_eq (l := .item p) hcwd hnames, ?_, ?_, fun c hc => ?_⟩
  · rw [SectionPath.sections_joinSP]
    have h1 := sections_fromList (p := [name]) (by simp) (by simpa using hn)
    have h2 : (SectionPath.mk name).sections = [name] := by
      simpa [SectionPath.fromSectionStrList, join, joinL] using h1
    rw [h2]
    show [name] ++ (SectionPath.fromSectionStrList p).sections = _
    rw [sections_fromList hnames.1 (fun x hx => (hnames.2 x hx).2)]
    rfl
  · exact congrFun (refreshRecorded_eq hn hnames.1 (fun x hx => (hnames.2 x hx).2)) s
  · rw [ownConfig_eq hp] at hc
    exact hs.cm.good.ownFiles.own hp.isItem.plain hc

/-- The hypotheses are met. -/
example : (demoRunner demoFunc).Reachable ∧ ConfigItem (demoRunner demoFunc).cm demoPath ∧ PathNames demoPath ∧
    (recordedPath "/home" "/home/defaults" "m" (.item demoPath)).toOption = some ⟨"m.main.data.func"⟩ := by
  refine ⟨demoRunner_reachable _, (demoRunner_item demoFunc).config, ⟨by decide, ?_⟩, ?_⟩
  · unfold FileName
    decide +kernel
  · decide +kernel

theorem refresh_walk_error [BEq V] {s : RS V} {p : List String} {e : PyErr} (h : s.cm.walk p = .error e) :
    RM.refresh p s = (.error e, s) := by
  have hc : CMM.refresh p s.cm = (.error e, s.cm) := by
    unfold CMM.refresh CMM.getProjectOrLocal CMM.getFuncOrSectionConfigs
    simp only [M.bind_run, M.get_run, M.liftE, h]
  unfold RM.refresh
  rw [M.bind_run]
  unfold RM.liftC
  rw [hc]

/-- C72 fails for the files of sections: in whatever state a manager is, if the section (not the project) has nothing called
`section` in it, the path recorded for its file ends with `section`, and refreshing it is a `KeyError` that changes nothing.  So
after a section file has read an attribute of an item, every change of that item ends in this error. -/
theorem C72_section_violated [BEq V] (cwd base name : String) (hcwd : Path.isAbs cwd = true) (hn : hasChar '.' name = false)
    (s : RS V) (p : List String) (hnames : PathNames p) (cfg : Option (Conf V)) (attrs map : List (String × Node V))
    (hw : s.cm.walk p = .ok (.sect cfg attrs map)) (ha : AList.get? attrs "section" = none)
    (hm : AList.get? map "section" = none) (hlast : p.getLast? ≠ some "section") :
    ∃ sp, recordedPath cwd base name (.sect p) = .ok sp ∧ sp.sections = name :: p ++ ["section"] ∧
      refreshRecorded sp s = (.error .keyError, s) := by
  have hb : PathNames (p ++ ["section"]) := by
    refine ⟨by simp, fun x hx => ?_⟩
    rcases List.mem_append.1 hx with hx | hx
    · exact hnames.2 x hx
    · rw [List.mem_singleton.1 hx]
      unfold FileName
      decide
  have hd : ∀ x ∈ p ++ ["section"], hasChar '.' x = false := fun x hx => (hb.2 x hx).2
  refine ⟨_, recordedPath_eq (l := .sect p) hcwd hb, ?_, ?_⟩
  · rw [SectionPath.sections_joinSP]
    have h1 := sections_fromList (p := [name]) (by simp) (by simpa using hn)
    have h2 : (SectionPath.mk name).sections = [name] := by
      simpa [SectionPath.fromSectionStrList, join, joinL] using h1
    rw [h2]
    show [name] ++ (SectionPath.fromSectionStrList (p ++ ["section"])).sections = _
    rw [sections_fromList hb.1 hd]
    rfl
  · show refreshRecorded (SectionPath.joinSP ⟨name⟩ (SectionPath.fromSectionStrList (p ++ ["section"]))) s = _
    rw [congrFun (refreshRecorded_eq hn hb.1 hd) s]
    apply refresh_walk_error
    unfold CM.walk at hw ⊢
    rw [Node.walk_append, hw]
    simp only [if_neg hnames.1]
    have hne : "section" ≠ p.getLast?.getD s.cm.rootName := by
      intro h
      apply hlast
      cases hl : p.getLast? with
      | none => exact absurd (List.getLast?_eq_none_iff.1 hl) hnames.1
      | some x => rw [hl] at h; rw [h]; rfl
    simp only [Node.walk, Node.child]
    rw [if_neg (by decide), ha, hm]
    cases cfg with
    | none => rfl
    | some c => simp only [if_neg hne]

/-- Its hypotheses are met by the sections of a project. -/
example : ∃ cfg attrs map, (demoRunner demoFunc).cm.walk ["main"] = .ok (.sect cfg attrs map) ∧
    AList.get? attrs "section" = none ∧ AList.get? map "section" = none ∧ cfg.isSome = true :=
  ⟨_, _, _, rfl, rfl, rfl, rfl⟩

/-- `main/section.py`: `a = 1`; `main/section/section.py`: `a = 2`. -/
def nestedSectionFiles : Files Nat where
  read
    | .sect ["main"] => .ok (Dict.ofList [("a", 1)])
    | .sect ["main", "section"] => .ok (Dict.ofList [("a", 2)])
    | .item _ => .error .osError
    | .sect _ => .error .osError
  tree := .mk false [] [("main", .mk true [] [("section", .mk true [] [])])]

/-- C72 fails if the section has a section called `section` in it: the path recorded for its file leads to the config of the
other file. -/
theorem C72_section_folder_violated :
    ∃ s, CM.load nestedSectionFiles "defaults" = .ok s ∧
      (recordedPath "/home" "/home/defaults" "m" (.sect ["main"])).toOption = some ⟨"m.main.section"⟩ ∧
      ∃ c attrs map, s.walk ["main", "section"] = .ok (.sect (some c) attrs map) ∧ c.file = some (.sect ["main", "section"]) := by
  refine ⟨_, rfl, ?_, _, _, _, rfl, rfl⟩
  decide +kernel

end Verif.Props
