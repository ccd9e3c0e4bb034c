import Verif.Model.Frames
import Verif.Props.Managers
import Verif.Props.Recorded

/-
Property theorems about files that are not below the folder their section path is computed for: C03, C72.
-/

namespace Verif.Props
open Verif.Py Verif.Model

variable {V : Type}

/-! ### Absolute paths -/

theorem normStep_stays_plain {new : List String} {c : String} (hnew : ∀ x ∈ new, Path.Plain x) (hc : hasChar '/' c = false) :
    ∀ x ∈ Path.normStep true new c, Path.Plain x := by
  intro x hx
  unfold Path.normStep at hx
  split at hx
  · exact hnew x hx
  · rename_i h1
    split at hx
    · rename_i h2
      have hdd : c ≠ ".." := by
        intro e
        rcases h2 with h2 | ⟨h2, _⟩ | h2
        · exact h2 e
        · cases h2
        · exact (hnew _ (List.mem_of_getLast? h2)).2.2.1 rfl
      rcases List.mem_append.1 hx with hx | hx
      · exact hnew x hx
      · rw [List.mem_singleton.1 hx]
        exact ⟨fun e => h1 (Or.inl e), fun e => h1 (Or.inr e), hdd, hc⟩
    · exact hnew x (List.dropLast_subset _ hx)

theorem foldl_stays_plain {cs new : List String} (hnew : ∀ x ∈ new, Path.Plain x) (hc : ∀ c ∈ cs, hasChar '/' c = false) :
    ∀ x ∈ cs.foldl (Path.normStep true) new, Path.Plain x := by
  induction cs generalizing new with
  | nil => exact hnew
  | cons c cs ih =>
    rw [List.foldl_cons]
    exact ih (normStep_stays_plain hnew (hc c (by simp))) (fun c' h => hc c' (by simp [h]))

theorem pieces_abspath {cwd : String} (hcwd : Path.isAbs cwd = true) (p : String) :
    Path.pieces (Path.abspath cwd p) = Path.normComps (Path.full cwd p) :=
  Path.pieces_normpath (Path.isAbs_full hcwd p)

/-- C03: the names in an absolute path are proper names: not empty, `.` or `..`. -/
theorem C03_absolute (cwd : String) (hcwd : Path.isAbs cwd = true) (p : String) :
    ∀ x ∈ Path.pieces (Path.abspath cwd p), x ≠ "" ∧ x ≠ "." ∧ x ≠ ".." ∧ hasChar '/' x = false := by
  rw [pieces_abspath hcwd]
  unfold Path.normComps
  rw [Path.isAbs_full hcwd]
  exact foldl_stays_plain (by simp) (fun c hc => hasChar_of_mem_split '/' _ c hc)

/-! ### Relative paths -/

/-- The two lists do not begin with the same name. -/
def Parted (as bs : List String) : Prop := ∀ a ∈ as.head?, ∀ b ∈ bs.head?, a ≠ b

theorem commonLen_parted (c as bs : List String) (h : Parted as bs) : Path.commonLen (c ++ as) (c ++ bs) = c.length := by
  induction c with
  | nil =>
    cases as with
    | nil => cases bs <;> rfl
    | cons a as =>
      cases bs with
      | nil => rfl
      | cons b bs =>
        have : a ≠ b := h a rfl b rfl
        simp [Path.commonLen, this]
  | cons x c ih => simp [Path.commonLen, ih]

/-- `relpath`: up to the folder the two have in common, then down. -/
theorem relpath_parted {cwd base file : String} (hf : file ≠ "") {c up down : List String}
    (hb : Path.pieces (Path.abspath cwd base) = c ++ up) (hd : Path.pieces (Path.abspath cwd file) = c ++ down)
    (hp : Parted up down) :
    Path.relpath cwd file base = some (if up = [] ∧ down = [] then "." else join '/' (List.replicate up.length ".." ++ down)) := by
  unfold Path.relpath
  rw [if_neg hf]
  simp only [hb, hd, commonLen_parted c up down hp, List.length_append, Nat.add_sub_cancel_left, List.drop_left]
  by_cases h : up = [] ∧ down = []
  · rw [if_pos h, if_pos (by rw [h.1, h.2]; rfl)]
  · rw [if_neg h, if_neg]
    intro e
    rw [List.append_eq_nil_iff, List.replicate_eq_nil_iff, List.length_eq_zero_iff] at e
    exact h e

/-- C03: the section path of any file, for any folder: one step up for each folder that the file is not in, and then the names of
folders down to the file, without its suffix. -/
theorem C03_any_file (cwd base file : String) (hcwd : Path.isAbs cwd = true) (hf : file ≠ "") (c up down : List String)
    (last : String) (hb : Path.pieces (Path.abspath cwd base) = c ++ up)
    (hd : Path.pieces (Path.abspath cwd file) = c ++ (down ++ [last])) (hp : Parted up (down ++ [last])) :
    SectionPath.fromFilepath cwd base file =
      some ⟨join '.' (List.replicate up.length ".." ++ down ++ [SectionPath.stripPy last])⟩ := by
  unfold SectionPath.fromFilepath
  rw [relpath_parted hf hb hd hp, if_neg (by simp)]
  simp only [Option.map_some, SectionPath.relativeFilepathToSectionPath]
  rw [split_join '/' (by simp), ← List.append_assoc, SectionPath.mapLast_append]
  intro x hx
  rcases List.mem_append.1 hx with hx | hx
  · rw [(List.mem_replicate.1 hx).2]
    decide
  · exact (C03_absolute cwd hcwd file x (by rw [hd]; exact List.mem_append_right _ hx)).2.2.2

/-- C03: the folder itself has a section path of two empty names. -/
theorem C03_folder_itself (cwd base file : String) (hf : file ≠ "")
    (h : Path.pieces (Path.abspath cwd file) = Path.pieces (Path.abspath cwd base)) :
    ∃ sp, SectionPath.fromFilepath cwd base file = some sp ∧ sp.sections = ["", ""] := by
  refine ⟨⟨"."⟩, ?_, by decide +kernel⟩
  unfold SectionPath.fromFilepath
  rw [relpath_parted (c := Path.pieces (Path.abspath cwd base)) (up := []) (down := []) hf (by simp) (by simp [h]) (by simp [Parted]),
    if_pos ⟨rfl, rfl⟩]
  decide +kernel

theorem splitL_joinL_flat (sep : Char) : ∀ (ws : List (List Char)), ws ≠ [] → splitL sep (joinL sep ws) = ws.flatMap (splitL sep)
  | [], h => absurd rfl h
  | [w], _ => by simp [joinL]
  | w :: v :: vs, _ => by
    rw [joinL_cons_of_ne_nil sep w (by simp), splitL_append, splitL_joinL_flat sep (v :: vs) (by simp)]
    rfl

theorem split_join_flat (sep : Char) {xs : List String} (h : xs ≠ []) : split sep (join sep xs) = xs.flatMap (split sep) := by
  unfold split join
  rw [String.toList_ofList, splitL_joinL_flat sep _ (by simpa using h), List.map_flatMap, List.flatMap_map]

/-- C03 is about files below the folder.  Of any other file the section path begins with three empty names, and the file computed from it
is the same for all folders, in the root of the file system. -/
theorem C03_outside_files (cwd base file : String) (hcwd : Path.isAbs cwd = true) (hf : file ≠ "") (c up down : List String)
    (last : String) (hb : Path.pieces (Path.abspath cwd base) = c ++ up)
    (hd : Path.pieces (Path.abspath cwd file) = c ++ (down ++ [last])) (hp : Parted up (down ++ [last])) (hup : up ≠ []) :
    ∃ sp rest, SectionPath.fromFilepath cwd base file = some sp ∧ sp.sections = "" :: "" :: "" :: rest ∧
      ∀ folder, sp.toFilepath folder = join '/' ("" :: "" :: "" :: rest) := by
  obtain ⟨u, us, rfl⟩ := List.exists_cons_of_ne_nil hup
  refine ⟨_, (List.replicate us.length ".." ++ down ++ [SectionPath.stripPy last]).flatMap (split '.'),
    C03_any_file cwd base file hcwd hf c _ down last hb hd hp, ?_, fun folder => ?_⟩
  · unfold SectionPath.sections
    rw [split_join_flat '.' (by simp)]
    have : split '.' ".." = ["", "", ""] := by decide
    rw [List.length_cons, List.replicate_succ, List.cons_append, List.cons_append, List.flatMap_cons, this]
    rfl
  · have hs : (SectionPath.mk (join '.' (List.replicate (u :: us).length ".." ++ down ++ [SectionPath.stripPy last]))).sections =
        "" :: "" :: "" :: (List.replicate us.length ".." ++ down ++ [SectionPath.stripPy last]).flatMap (split '.') := by
      unfold SectionPath.sections
      rw [split_join_flat '.' (by simp)]
      have : split '.' ".." = ["", "", ""] := by decide
      rw [List.length_cons, List.replicate_succ, List.cons_append, List.cons_append, List.flatMap_cons, this]
      rfl
    unfold SectionPath.toFilepath SectionPath.toRelativeFilepath
    rw [hs, Path.join2, if_pos]
    rw [Path.isAbs, Path.startsWith_iff]
    refine ⟨join '/' ("" :: "" :: (List.replicate us.length ".." ++ down ++ [SectionPath.stripPy last]).flatMap (split '.')), ?_⟩
    rw [← String.toList_inj]
    simp [join, joinL]

/-- A file beside the folder. -/
example : Path.pieces (Path.abspath "/" "/p/defaults") = ["p"] ++ ["defaults"] ∧
    Path.pieces (Path.abspath "/" "/p/sub/defaults/a.py") = ["p"] ++ (["sub", "defaults"] ++ ["a.py"]) ∧
    SectionPath.fromFilepath "/" "/p/defaults" "/p/sub/defaults/a.py" = some ⟨"...sub.defaults.a"⟩ ∧
    (SectionPath.mk "...sub.defaults.a").toFilepath "/p/defaults" = "///sub/defaults/a" := by
  decide +kernel

/-- C72 fails for a manager whose folder is inside that of another one that was made before: while one of its config files is
executed, what is recorded is a path of the other manager that leads nowhere, and refreshing it raises `KeyError`. -/
theorem C72_nested_violated [BEq V] (cwd : String) (hcwd : Path.isAbs cwd = true) (ms : List Manager) (nameOf : Nat → String)
    (defaults file : String) (hdef : Path.Plain defaults) (m : Manager) (hm : managerOfFile cwd ms file = .ok m) (hf : file ≠ "")
    (hn : hasChar '.' (nameOf m.id) = false) (d : String) (down : List String)
    (hd : Path.pieces (Path.abspath cwd file) = Path.pieces (Path.abspath cwd m.folder) ++ d :: down) (hne : d ≠ defaults)
    (s : RS V) (cfg : Option (Conf V)) (attrs map : List (String × Node V)) (hroot : s.cm.root = .sect cfg attrs map)
    (ha : AList.get? attrs "" = none) (hmap : AList.get? map "" = none) (hname : s.cm.rootName ≠ "") :
    ∃ sp rest, framePath cwd ms nameOf defaults file = .ok sp ∧ sp.sections = nameOf m.id :: "" :: "" :: "" :: rest ∧
      refreshRecorded sp s = (.error .keyError, s) := by
  have hb : Path.pieces (Path.abspath cwd (Path.join2 m.folder defaults)) = Path.pieces (Path.abspath cwd m.folder) ++ [defaults] := by
    have := Path.normComps_full_join2 hcwd m.folder (ws := [defaults]) (by simp) (by simpa using hdef)
    rw [pieces_abspath hcwd, pieces_abspath hcwd, ← this]
    simp [join, joinL]
  obtain ⟨ini, last, hl⟩ : ∃ ini last, d :: down = ini ++ [last] :=
    ⟨_, _, (List.dropLast_concat_getLast (by simp : d :: down ≠ [])).symm⟩
  have hp : Parted [defaults] (ini ++ [last]) := by
    rw [← hl]
    intro a ha b hb
    simp only [List.head?_cons, Option.mem_some_iff] at ha hb
    rw [← ha, ← hb]
    exact fun e => hne e.symm
  obtain ⟨sp, rest, h1, h2, -⟩ := C03_outside_files cwd _ file hcwd hf _ [defaults] ini last hb (by rw [hd, hl]) hp (by simp)
  have hsec : (SectionPath.joinSP ⟨nameOf m.id⟩ sp).sections = nameOf m.id :: "" :: "" :: "" :: rest := by
    have h3 := sections_fromList (p := [nameOf m.id]) (by simp) (by simpa using hn)
    have h4 : (SectionPath.mk (nameOf m.id)).sections = [nameOf m.id] := by
      simpa [SectionPath.fromSectionStrList, join, joinL] using h3
    rw [SectionPath.sections_joinSP, h4, h2]
    rfl
  refine ⟨_, rest, ?_, hsec, ?_⟩
  · unfold framePath
    rw [hm]
    dsimp only
    rw [h1]
  · have htail : (SectionPath.joinSP ⟨nameOf m.id⟩ sp).tail.sections = "" :: "" :: "" :: rest := by
      unfold SectionPath.tail
      rw [hsec]
      exact sections_fromList (by simp) (fun x hx => by
        rcases List.mem_cons.1 hx with rfl | hx
        · decide
        rcases List.mem_cons.1 hx with rfl | hx
        · decide
        rcases List.mem_cons.1 hx with rfl | hx
        · decide
        exact hasChar_of_mem_split '.' sp.pathStr x (by
          show x ∈ sp.sections
          rw [h2]
          simp [hx]))
    unfold refreshRecorded
    rw [htail]
    apply refresh_walk_error
    unfold CM.walk
    rw [hroot]
    simp only [Node.walk, Node.child]
    rw [if_neg (by decide), ha, hmap]
    cases cfg with
    | none => rfl
    | some c => simp only [if_neg (Ne.symm hname)]

/-- A project inside the folder of another one. -/
example : managerOfFile "/" [⟨0, "/p"⟩, ⟨1, "/p/sub"⟩] "/p/sub/defaults/a.py" = .ok ⟨0, "/p"⟩ ∧
    framePath "/" [⟨0, "/p"⟩, ⟨1, "/p/sub"⟩] (fun i => if i = 0 then "outer" else "inner") "defaults" "/p/sub/defaults/a.py"
      = .ok ⟨"outer....sub.defaults.a"⟩ ∧
    framePath "/" [⟨1, "/p/sub"⟩, ⟨0, "/p"⟩] (fun i => if i = 0 then "outer" else "inner") "defaults" "/p/sub/defaults/a.py"
      = .ok ⟨"inner.a"⟩ := by
  decide +kernel

/-- C72: without a file name there is no path. -/
theorem C72_no_name (cwd : String) (ms : List Manager) (nameOf : Nat → String) (defaults : String) (m : Manager)
    (h : managerOfFile cwd ms "" = .ok m) : framePath cwd ms nameOf defaults "" = .error .valueError := by
  unfold framePath
  rw [h]
  rfl

example : managerOfFile "/p/a" [⟨0, "/p"⟩] "" = .ok ⟨0, "/p"⟩ := by decide +kernel

end Verif.Props
