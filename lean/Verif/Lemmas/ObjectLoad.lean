import Verif.Lemmas.ObjectOps

/-
The objects of a config manager that was just loaded.
-/

namespace Verif.Model
open Verif.Py
variable {V : Type}

/-- A section that was just read from files: nothing has been loaded and nothing set. -/
inductive FreshNode : Node V → Prop where
  | file (l : FileLoc) : FreshNode (.file l)
  | sect (cfg : Option (Conf V)) (map : List (String × Node V)) : (∀ e ∈ map, FreshNode e.2) → FreshNode (.sect cfg [] map)

theorem AList.mem_foldl_set {W : Type} (P : W → Prop) (es : List (String × W)) : ∀ m : List (String × W),
    (∀ e ∈ m, P e.2) → (∀ e ∈ es, P e.2) →
    ∀ e ∈ es.foldl (fun (m : List (String × W)) e => AList.set m e.1 e.2) m, P e.2 := by
  induction es with
  | nil => intro m hm _; exact hm
  | cons a es ih =>
    intro m hm hes
    refine ih _ ?_ (fun e he => hes e (List.mem_cons_of_mem _ he))
    have ha := hes a List.mem_cons_self
    intro e he
    have : ∀ l : List (String × W), (∀ e ∈ l, P e.2) → ∀ e ∈ AList.set l a.1 a.2, P e.2 := by
      intro l
      induction l with
      | nil =>
        intro _ e he
        simp only [AList.set, List.mem_singleton] at he
        subst he; exact ha
      | cons b l ihl =>
        intro hl e he
        obtain ⟨k, w⟩ := b
        simp only [AList.set] at he
        split at he
        · rcases List.mem_cons.1 he with he | he
          · subst he; exact ha
          · exact hl e (List.mem_cons_of_mem _ he)
        · rcases List.mem_cons.1 he with he | he
          · subst he; exact hl _ List.mem_cons_self
          · exact ihl (fun e he => hl e (List.mem_cons_of_mem _ he)) e he
    exact this m hm e he

mutual
theorem fromFiles_freshNode (fs : Files V) (p : List String) : ∀ (t : DirTree) (n : Node V), fromFiles fs p t = .ok n → FreshNode n
  | .mk hasSection files dirs, n, h => by
    simp only [fromFiles] at h
    cases h1 : sectionConfig fs p hasSection with
    | error e => rw [h1] at h; cases h
    | ok cfg =>
      rw [h1] at h
      cases h2 : fromFilesDirs fs p dirs with
      | error e => rw [h2] at h; cases h
      | ok sections =>
        rw [h2] at h
        simp only [Except.ok.injEq] at h
        subst h
        refine .sect cfg _ (AList.mem_foldl_set FreshNode _ [] (by simp) ?_)
        intro e he
        rw [List.mem_append] at he
        rcases he with he | he
        · simp only [List.mem_map] at he
          obtain ⟨f, -, rfl⟩ := he
          exact .file _
        · exact fromFilesDirs_freshNode fs p dirs sections h2 e he
theorem fromFilesDirs_freshNode (fs : Files V) (p : List String) : ∀ (ds : List (String × DirTree)) (ns : List (String × Node V)),
    fromFilesDirs fs p ds = .ok ns → ∀ e ∈ ns, FreshNode e.2
  | [], ns, h => by
    simp only [fromFilesDirs, Except.ok.injEq] at h
    subst h
    intro e he; cases he
  | (name, d) :: ds, ns, h => by
    simp only [fromFilesDirs] at h
    cases h1 : fromFiles fs (p ++ [name]) d with
    | error e => rw [h1] at h; cases h
    | ok n =>
      rw [h1] at h
      cases h2 : fromFilesDirs fs p ds with
      | error e => rw [h2] at h; cases h
      | ok ns' =>
        rw [h2] at h
        simp only [Except.ok.injEq] at h
        subst h
        intro e he
        rcases List.mem_cons.1 he with he | he
        · subst he; exact fromFiles_freshNode fs _ d n h1
        · exact fromFilesDirs_freshNode fs p ds ns' h2 e he
end

/-- The objects of a section that was just read are in a range of addresses, those of each of its parts in a range of
their own. -/
inductive Built (H : List (HObj V)) : String → Node V → Nat → Nat → Nat → Prop where
  | file {nm : String} {l : FileLoc} {r lo hi : Nat} : H[r]? = some (.file l) → lo ≤ r → r < hi → Built H nm (.file l) r lo hi
  | sect {nm : String} {cfg : Option (Conf V)} {map : List (String × Node V)} {r lo hi : Nat} (rc : Option Nat)
      (rmap : List (String × Nat)) (k lo' hi' : String → Nat) :
      H[r]? = some (.sect nm rc [] rmap) → lo ≤ r → r < hi →
      (cfg = none ∧ rc = none ∨ ∃ c j, cfg = some c ∧ rc = some j ∧ H[j]? = some (.conf c) ∧ lo ≤ j ∧ j < hi ∧ j ≠ r) →
      (∀ x, AList.get? rmap x = (AList.get? map x).map (fun _ => k x)) →
      (∀ x n, AList.get? map x = some n → Built H x n (k x) (lo' x) (hi' x)) →
      (∀ x n, AList.get? map x = some n → lo ≤ lo' x ∧ hi' x ≤ hi ∧ ¬ (lo' x ≤ r ∧ r < hi' x) ∧
        ∀ j, rc = some j → ¬ (lo' x ≤ j ∧ j < hi' x)) →
      (∀ x y n m, x ≠ y → AList.get? map x = some n → AList.get? map y = some m → hi' x ≤ lo' y ∨ hi' y ≤ lo' x) →
      Built H nm (.sect cfg [] map) r lo hi

theorem getElem?_append_of_some {α : Type} {l t : List α} {r : Nat} {o : α} (h : l[r]? = some o) : (l ++ t)[r]? = some o := by
  rw [List.getElem?_append_left (List.getElem?_eq_some_iff.1 h).1]; exact h

theorem Built.mono {H : List (HObj V)} {nm n r lo hi} (h : Built H nm n r lo hi) (t : List (HObj V)) :
    Built (H ++ t) nm n r lo hi := by
  induction h with
  | file h1 h2 h3 => exact .file (getElem?_append_of_some h1) h2 h3
  | sect rc rmap k lo' hi' h1 h2 h3 h4 h5 h6 h7 h8 ih =>
    refine .sect rc rmap k lo' hi' (getElem?_append_of_some h1) h2 h3 ?_ h5 ih h7 h8
    rcases h4 with h4 | ⟨c, j, e1, e2, e3, e4⟩
    · exact .inl h4
    · exact .inr ⟨c, j, e1, e2, getElem?_append_of_some e3, e4⟩

/-- What is proved of the objects for a node. -/
def BuildsOK (n : Node V) : Prop := ∀ (nm : String) (h : List (HObj V)),
  Built (allocNode nm h n).2 nm n (allocNode nm h n).1 h.length (allocNode nm h n).2.length ∧
    ∃ t, (allocNode nm h n).2 = h ++ t

theorem allocNodes_built (l : List (String × Node V)) (hl : ∀ e ∈ l, BuildsOK e.2) : ∀ (h : List (HObj V)),
    ∃ k lo hi : String → Nat,
      (∀ x, AList.get? (allocNodes h l).1 x = (AList.get? l x).map (fun _ => k x)) ∧
      (∀ x n, AList.get? l x = some n → Built (allocNodes h l).2 x n (k x) (lo x) (hi x) ∧ h.length ≤ lo x ∧
        hi x ≤ (allocNodes h l).2.length) ∧
      (∀ x y n m, x ≠ y → AList.get? l x = some n → AList.get? l y = some m → hi x ≤ lo y ∨ hi y ≤ lo x) ∧
      ∃ t, (allocNodes h l).2 = h ++ t := by
  induction l with
  | nil =>
    intro h
    refine ⟨fun _ => 0, fun _ => 0, fun _ => 0, ?_, ?_, ?_, [], ?_⟩
    · intro x; simp [allocNodes, AList.get?]
    · intro x n hn; simp [AList.get?] at hn
    · intro x y n m _ hn; simp [AList.get?] at hn
    · simp [allocNodes]
  | cons e l ih =>
    intro h
    obtain ⟨x0, n0⟩ := e
    obtain ⟨hb, t0, ht0⟩ := hl (x0, n0) List.mem_cons_self x0 h
    obtain ⟨k, lo, hi, h1, h2, h3, t, ht⟩ := ih (fun e he => hl e (List.mem_cons_of_mem _ he)) (allocNode x0 h n0).2
    have e1 : (allocNodes h ((x0, n0) :: l)).1 = (x0, (allocNode x0 h n0).1) :: (allocNodes (allocNode x0 h n0).2 l).1 := by
      simp only [allocNodes]
    have e2 : (allocNodes h ((x0, n0) :: l)).2 = (allocNodes (allocNode x0 h n0).2 l).2 := by
      simp only [allocNodes]
    have hlen0 : h.length ≤ (allocNode x0 h n0).2.length := by rw [ht0]; simp
    have hlen1 : (allocNode x0 h n0).2.length ≤ (allocNodes (allocNode x0 h n0).2 l).2.length := by rw [ht]; simp
    refine ⟨fun y => if y = x0 then (allocNode x0 h n0).1 else k y, fun y => if y = x0 then h.length else lo y,
      fun y => if y = x0 then (allocNode x0 h n0).2.length else hi y, ?_, ?_, ?_, t0 ++ t, ?_⟩
    · intro y
      rw [e1]
      simp only [AList.get?]
      by_cases hy : y = x0
      · subst hy; simp
      · simp only [if_neg (show ¬ x0 = y from fun e => hy e.symm), if_neg hy, h1 y]
    · intro y n hn
      rw [e2]
      simp only [AList.get?] at hn
      by_cases hy : y = x0
      · subst hy
        simp at hn
        subst hn
        simp only [if_true]
        refine ⟨?_, Nat.le_refl _, hlen1⟩
        rw [ht]
        exact hb.mono t
      · rw [if_neg (fun e => hy e.symm)] at hn
        obtain ⟨a, b, c⟩ := h2 y n hn
        simp only [if_neg hy]
        exact ⟨a, by omega, c⟩
    · intro y z n m hyz hn hm
      simp only [AList.get?] at hn hm
      by_cases hy : y = x0
      · by_cases hz : z = x0
        · exact absurd (hy.trans hz.symm) hyz
        · rw [if_neg (fun e => hz e.symm)] at hm
          simp only [if_pos hy, if_neg hz]
          exact .inl (h2 z m hm).2.1
      · rw [if_neg (fun e => hy e.symm)] at hn
        by_cases hz : z = x0
        · simp only [if_pos hz, if_neg hy]
          exact .inr (h2 y n hn).2.1
        · rw [if_neg (fun e => hz e.symm)] at hm
          simp only [if_neg hz, if_neg hy]
          exact h3 y z n m hyz hn hm
    · rw [e2, ht, ht0, List.append_assoc]

theorem FreshNode.builds {n : Node V} (h : FreshNode n) : BuildsOK n := by
  induction h with
  | file l =>
    intro nm h
    simp only [allocNode]
    exact ⟨.file (by simp) (Nat.le_refl _) (by simp), _, rfl⟩
  | sect cfg map _ ih =>
    intro nm h
    cases cfg with
    | none =>
      obtain ⟨k, lo, hi, h1, h2, h3, t, ht⟩ := allocNodes_built map ih h
      have e : allocNode nm h (.sect none [] map) =
          ((allocNodes h map).2.length, (allocNodes h map).2 ++ [.sect nm none [] (allocNodes h map).1]) := by
        simp only [allocNode]
      rw [e]
      simp only
      have hlen : h.length ≤ (allocNodes h map).2.length := by rw [ht]; simp
      refine ⟨.sect none (allocNodes h map).1 k lo hi (by simp) hlen (by simp) (.inl ⟨rfl, rfl⟩) h1
        (fun x n hn => (h2 x n hn).1.mono _) ?_ h3, t ++ [.sect nm none [] (allocNodes h map).1], by rw [← List.append_assoc, ← ht]⟩
      intro x n hn
      obtain ⟨-, b, c⟩ := h2 x n hn
      refine ⟨b, by simp; omega, by omega, by intro j hj; cases hj⟩
    | some c =>
      obtain ⟨k, lo, hi, h1, h2, h3, t, ht⟩ := allocNodes_built map ih (h ++ [.conf c])
      have e : allocNode nm h (.sect (some c) [] map) = ((allocNodes (h ++ [.conf c]) map).2.length,
          (allocNodes (h ++ [.conf c]) map).2 ++ [.sect nm (some h.length) [] (allocNodes (h ++ [.conf c]) map).1]) := by
        simp only [allocNode]
      rw [e]
      simp only
      have hlen : h.length + 1 ≤ (allocNodes (h ++ [.conf c]) map).2.length := by rw [ht]; simp
      have hc : (allocNodes (h ++ [.conf c]) map).2[h.length]? = some (.conf c) := by
        rw [ht, List.append_assoc]
        simp
      refine ⟨.sect (some h.length) (allocNodes (h ++ [.conf c]) map).1 k lo hi (by simp) (by omega) (by simp)
        (.inr ⟨c, h.length, rfl, rfl, getElem?_append_of_some hc, Nat.le_refl _, by simp; omega, by omega⟩) h1
        (fun x n hn => (h2 x n hn).1.mono _) ?_ h3,
        [.conf c] ++ t ++ [.sect nm (some h.length) [] (allocNodes (h ++ [.conf c]) map).1],
        by rw [← List.append_assoc, ← List.append_assoc, ← ht]⟩
      intro x n hn
      obtain ⟨-, b, c'⟩ := h2 x n hn
      simp at b
      refine ⟨by omega, by simp; omega, by omega, ?_⟩
      intro j hj
      cases hj
      omega

/-! ### Walks -/

namespace Built
variable {s : HS V} {nm : String} {n : Node V} {r lo hi : Nat}

theorem range (h : Built s.heap nm n r lo hi) : lo ≤ r ∧ r < hi := by
  cases h with
  | file _ a b => exact ⟨a, b⟩
  | sect _ _ _ _ _ _ a b => exact ⟨a, b⟩

/-- One step down. -/
theorem attr (h : Built s.heap nm n r lo hi) {x : String} (hx : x ≠ nm) (hr : x ∉ sectionReserved) :
    match n.child sectionReserved nm x with
    | .ok n' => ∃ r' lo' hi', s.attr (.ref r) x = .ok (.ref r') ∧ Built s.heap x n' r' lo' hi' ∧ lo ≤ lo' ∧ hi' ≤ hi
    | .error _ => ∃ e, s.attr (.ref r) x = .error e := by
  cases h with
  | file h1 _ _ =>
    simp only [Node.child]
    exact ⟨.attributeError, by simp [HS.attr, HS.obj, h1, HS.objAttr]⟩
  | @sect _ cfg map _ _ _ rc rmap k lo' hi' h1 h2 h3 h4 h5 h6 h7 h8 =>
    have hat : s.attr (.ref r) x = match AList.get? rmap x with
        | some r' => .ok (.ref r')
        | none => .error .keyError := by
      simp only [HS.attr, HS.obj, h1, HS.objAttr, HS.sectAttr]
      rw [if_neg (mem_sectionReserved hr), if_neg hr]
      simp only [AList.get?]
      cases rc with
      | none => cases AList.get? rmap x <;> rfl
      | some j =>
        simp only [if_neg hx]
        cases AList.get? rmap x <;> rfl
    have hch : Node.child sectionReserved nm (.sect cfg [] map) x = match AList.get? map x with
        | some n' => .ok n'
        | none => .error .keyError := by
      simp only [Node.child]
      rw [if_neg hr]
      simp only [AList.get?]
      cases cfg with
      | none => cases AList.get? map x <;> rfl
      | some j =>
        simp only [if_neg hx]
        cases AList.get? map x <;> rfl
    rw [hch, hat, h5 x]
    cases hm : AList.get? map x with
    | none => exact ⟨_, rfl⟩
    | some n' =>
      obtain ⟨a, b, -⟩ := h7 x n' hm
      exact ⟨_, _, _, rfl, h6 x n' hm, a, b⟩

/-- The same way down in the tree and along the objects. -/
theorem walk (q : List String) : ∀ {nm : String} {n : Node V} {r lo hi : Nat}, Built s.heap nm n r lo hi →
    PlainPath nm q → NotReserved sectionReserved q →
    match n.walk sectionReserved nm q with
    | .ok n' => ∃ r' lo' hi', s.walk (.ref r) q = .ok (.ref r') ∧ Built s.heap (q.getLast?.getD nm) n' r' lo' hi' ∧
        lo ≤ lo' ∧ hi' ≤ hi
    | .error _ => ∃ e, s.walk (.ref r) q = .error e := by
  induction q with
  | nil => intro nm n r lo hi h _ _; exact ⟨r, lo, hi, rfl, h, Nat.le_refl _, Nat.le_refl _⟩
  | cons x q ih =>
    intro nm n r lo hi h hp hr
    obtain ⟨hx, hp'⟩ : x ≠ nm ∧ PlainPath x q := hp
    obtain ⟨hxr, hr'⟩ : x ∉ sectionReserved ∧ NotReserved sectionReserved q := hr
    have ha := h.attr hx hxr
    simp only [Node.walk, HS.walk]
    cases hc : n.child sectionReserved nm x with
    | error e =>
      rw [hc] at ha
      obtain ⟨e', ha⟩ := ha
      rw [ha]
      exact ⟨e', rfl⟩
    | ok n' =>
      rw [hc] at ha
      obtain ⟨r', lo', hi', ha, hb, h1, h2⟩ := ha
      rw [ha]
      have := ih hb hp' hr'
      simp only
      cases hw : n'.walk sectionReserved x q with
      | error e => rw [hw] at this; exact this
      | ok n'' =>
        rw [hw] at this
        obtain ⟨r2, lo2, hi2, e1, e2, e3, e4⟩ := this
        refine ⟨r2, lo2, hi2, e1, ?_, by omega, by omega⟩
        have : (x :: q).getLast?.getD nm = q.getLast?.getD x := by
          cases q with
          | nil => rfl
          | cons y q => simp [List.getLast?_cons_cons]; rw [List.getLast?_eq_some_getLast (by simp)]; rfl
        rw [this]
        exact e2

end Built

/-- The object, or the config of the section, at the end of a way down. -/
def HS.addr (s : HS V) (v : HVal) (q : List String) (cfg : Bool) : Option Nat :=
  match s.walk v q with
  | .ok (.ref r) => if cfg then s.cfgOf r else some r
  | _ => none

namespace Built
variable {s : HS V}

theorem cfgOf_range {nm : String} {n : Node V} {r lo hi : Nat} (h : Built s.heap nm n r lo hi) {j : Nat}
    (hj : s.cfgOf r = some j) : lo ≤ j ∧ j < hi ∧ j ≠ r ∧ ∃ c, s.heap[j]? = some (.conf c) := by
  cases h with
  | file h1 _ _ => simp [HS.cfgOf, h1] at hj
  | sect rc rmap k lo' hi' h1 h2 h3 h4 h5 h6 h7 h8 =>
    simp [HS.cfgOf, h1] at hj
    rcases h4 with ⟨-, e⟩ | ⟨c, j', -, e2, e3, e4, e5, e6⟩
    · rw [e] at hj; cases hj
    · rw [e2] at hj
      cases hj
      exact ⟨e4, e5, e6, c, e3⟩

theorem addr_range {nm : String} {n : Node V} {r lo hi : Nat} (h : Built s.heap nm n r lo hi) {q : List String}
    (hp : PlainPath nm q) (hr : NotReserved sectionReserved q) {b : Bool} {j : Nat} (hj : s.addr (.ref r) q b = some j) :
    lo ≤ j ∧ j < hi := by
  have hw := Built.walk q h hp hr
  unfold HS.addr at hj
  cases hn : n.walk sectionReserved nm q with
  | error e =>
    rw [hn] at hw
    obtain ⟨e', hw⟩ := hw
    rw [hw] at hj; cases hj
  | ok n' =>
    rw [hn] at hw
    obtain ⟨r', lo', hi', hw, hb, h1, h2⟩ := hw
    rw [hw] at hj
    simp only at hj
    cases b with
    | false =>
      simp at hj
      subst hj
      have := hb.range
      omega
    | true =>
      simp at hj
      have := hb.cfgOf_range hj
      omega

/-- Different places have different objects. -/
theorem addr_inj (q1 : List String) : ∀ {nm : String} {n : Node V} {r lo hi : Nat}, Built s.heap nm n r lo hi →
    ∀ {q2 : List String}, PlainPath nm q1 → NotReserved sectionReserved q1 → PlainPath nm q2 → NotReserved sectionReserved q2 →
    ∀ {b1 b2 : Bool} {j : Nat}, s.addr (.ref r) q1 b1 = some j → s.addr (.ref r) q2 b2 = some j → q1 = q2 ∧ b1 = b2 := by
  -- the object of a section is not among those of its parts
  have hhere : ∀ {nm : String} {n : Node V} {r lo hi : Nat}, Built s.heap nm n r lo hi → ∀ {x : String} {q : List String},
      PlainPath nm (x :: q) → NotReserved sectionReserved (x :: q) → ∀ {b1 b2 : Bool} {j : Nat},
      s.addr (.ref r) [] b1 = some j → s.addr (.ref r) (x :: q) b2 = some j → False := by
    intro nm n r lo hi h x q hp hr b1 b2 j h1 h2
    obtain ⟨hx, hp'⟩ : x ≠ nm ∧ PlainPath x q := hp
    obtain ⟨hxr, hr'⟩ : x ∉ sectionReserved ∧ NotReserved sectionReserved q := hr
    cases h with
    | file hf _ _ =>
      simp [HS.addr, HS.walk, HS.attr, HS.obj, hf, HS.objAttr] at h2
    | @sect _ cfg map _ _ _ rc rmap k lo' hi' e1 e2 e3 e4 e5 e6 e7 e8 =>
      have hat : s.attr (.ref r) x = match AList.get? rmap x with
          | some r' => .ok (.ref r')
          | none => .error .keyError := by
        simp only [HS.attr, HS.obj, e1, HS.objAttr, HS.sectAttr]
        rw [if_neg (mem_sectionReserved hxr), if_neg hxr]
        simp only [AList.get?]
        cases rc with
        | none => cases AList.get? rmap x <;> rfl
        | some j =>
          simp only [if_neg hx]
          cases AList.get? rmap x <;> rfl
      unfold HS.addr at h2
      simp only [HS.walk, hat, e5 x] at h2
      cases hm : AList.get? map x with
      | none => rw [hm] at h2; simp at h2
      | some n' =>
        rw [hm] at h2
        simp only [Option.map_some] at h2
        have hrange := (e6 x n' hm).addr_range hp' hr' (b := b2) (j := j) h2
        obtain ⟨-, -, a, b⟩ := e7 x n' hm
        unfold HS.addr at h1
        simp only [HS.walk] at h1
        cases b1 with
        | false => simp at h1; subst h1; exact a hrange
        | true =>
          simp [HS.cfgOf, e1] at h1
          exact b j h1 hrange
  induction q1 with
  | nil =>
    intro nm n r lo hi h q2 hp1 hr1 hp2 hr2 b1 b2 j h1 h2
    cases q2 with
    | nil =>
      refine ⟨rfl, ?_⟩
      unfold HS.addr at h1 h2
      simp only [HS.walk] at h1 h2
      cases b1 <;> cases b2 <;> simp at h1 h2 ⊢
      · subst h1
        exact absurd rfl (h.cfgOf_range h2).2.2.1
      · subst h2
        exact absurd rfl (h.cfgOf_range h1).2.2.1
    | cons x q => exact (hhere h hp2 hr2 h1 h2).elim
  | cons x q1 ih =>
    intro nm n r lo hi h q2 hp1 hr1 hp2 hr2 b1 b2 j h1 h2
    cases q2 with
    | nil => exact (hhere h hp1 hr1 h2 h1).elim
    | cons y q2 =>
      obtain ⟨hx, hp1'⟩ : x ≠ nm ∧ PlainPath x q1 := hp1
      obtain ⟨hxr, hr1'⟩ : x ∉ sectionReserved ∧ NotReserved sectionReserved q1 := hr1
      obtain ⟨hy, hp2'⟩ : y ≠ nm ∧ PlainPath y q2 := hp2
      obtain ⟨hyr, hr2'⟩ : y ∉ sectionReserved ∧ NotReserved sectionReserved q2 := hr2
      cases h with
      | file hf _ _ =>
        simp [HS.addr, HS.walk, HS.attr, HS.obj, hf, HS.objAttr] at h2
      | @sect _ cfg map _ _ _ rc rmap k lo' hi' e1 e2 e3 e4 e5 e6 e7 e8 =>
        have hat : ∀ z, z ≠ nm → z ∉ sectionReserved → s.attr (.ref r) z = match AList.get? rmap z with
            | some r' => .ok (.ref r')
            | none => .error .keyError := by
          intro z hz hzr
          simp only [HS.attr, HS.obj, e1, HS.objAttr, HS.sectAttr]
          rw [if_neg (mem_sectionReserved hzr), if_neg hzr]
          simp only [AList.get?]
          cases rc with
          | none => cases AList.get? rmap z <;> rfl
          | some j =>
            simp only [if_neg hz]
            cases AList.get? rmap z <;> rfl
        unfold HS.addr at h1 h2
        simp only [HS.walk, hat x hx hxr, e5 x] at h1
        simp only [HS.walk, hat y hy hyr, e5 y] at h2
        cases hm1 : AList.get? map x with
        | none => rw [hm1] at h1; simp at h1
        | some n1 =>
          cases hm2 : AList.get? map y with
          | none => rw [hm2] at h2; simp at h2
          | some n2 =>
            rw [hm1] at h1
            rw [hm2] at h2
            simp only [Option.map_some] at h1 h2
            by_cases hxy : x = y
            · subst hxy
              obtain ⟨a, b⟩ := ih (e6 x n1 hm1) hp1' hr1' hp2' hr2' (b1 := b1) (b2 := b2) (j := j) h1 h2
              exact ⟨by rw [a], b⟩
            · exfalso
              have r1 := (e6 x n1 hm1).addr_range hp1' hr1' (b := b1) (j := j) h1
              have r2 := (e6 y n2 hm2).addr_range hp2' hr2' (b := b2) (j := j) h2
              have := e8 x y n1 n2 hxy hm1 hm2
              omega

end Built

/-- What is seen at clean paths. -/
def View.clean (a : View V) : View V :=
  { a with slot := fun q => if CleanPath a.rootName q then a.slot q else .absent }

theorem Built.slotAt {s : HS V} {nm : String} {n : Node V} {r lo hi : Nat} (h : Built s.heap nm n r lo hi) :
    s.slotAt r = Node.slotOf (.ok n) := by
  cases h with
  | file h1 _ _ => simp [HS.slotAt, h1, Node.slotOf]
  | sect rc rmap k lo' hi' h1 h2 h3 h4 h5 h6 h7 h8 =>
    simp only [HS.slotAt, h1, Node.slotOf]
    rcases h4 with ⟨e1, e2⟩ | ⟨c, j, e1, e2, e3, -⟩
    · rw [e1, e2]; rfl
    · rw [e1, e2, Option.bind_some, HS.confAt_some.2 e3]

theorem Built.name {s : HS V} {nm : String} {n : Node V} {r lo hi : Nat} (h : Built s.heap nm n r lo hi) {nm' cfg attrs map}
    (ho : s.heap[r]? = some (.sect nm' cfg attrs map)) : nm' = nm := by
  cases h with
  | file h1 _ _ => rw [h1] at ho; cases ho
  | sect rc rmap k lo' hi' h1 h2 h3 h4 h5 h6 h7 h8 => rw [h1] at ho; cases ho; rfl

theorem notReserved_section {q : List String} (h : NotReserved managerReserved q) : NotReserved sectionReserved q := by
  cases q with
  | nil => trivial
  | cons x q => exact ⟨(mem_managerReserved h.1).2.2.2.2, h.2⟩

theorem HS.walk_mgr {s : HS V} (ha : s.attrs = []) {x : String} {q : List String} (hx : x ∉ managerReserved) :
    s.walk .mgr (x :: q) = s.walk (.ref s.section_) (x :: q) := by
  obtain ⟨h1, h2, h3, h4, h5⟩ := mem_managerReserved hx
  have : s.attr .mgr x = s.attr (.ref s.section_) x := by
    unfold HS.attr
    simp only
    rw [if_neg h1, if_neg h2, if_neg h3, ha]
    simp [AList.get?]
  simp only [HS.walk, this]

theorem Node.walk_managerReserved {nm : String} {n : Node V} {q : List String} (h : NotReserved managerReserved q) :
    n.walk managerReserved nm q = n.walk sectionReserved nm q := by
  cases q with
  | nil => rfl
  | cons x q =>
    have hx : x ∉ managerReserved := h.1
    have hx' := (mem_managerReserved hx).2.2.2.2
    have : n.child managerReserved nm x = n.child sectionReserved nm x := by
      cases n with
      | sect cfg attrs map => simp only [Node.child]; rw [if_neg hx, if_neg hx']
      | _ => rfl
    simp only [Node.walk, this]

/-- The objects of a config manager that was just loaded: each place has one of its own, and what is seen is what the tree
has. -/
theorem HS.load_ok {fs : Files V} {rn : String} {s : HS V} (h : HS.load fs rn = .ok s) :
    HInv s ∧ s.rootName = rn ∧ ∃ t, CM.load fs rn = .ok t ∧ s.view = t.view.clean := by
  unfold HS.load at h
  cases hf : fromFiles fs [] fs.tree with
  | error e => rw [hf] at h; cases h
  | ok root =>
    rw [hf] at h
    simp only [Except.ok.injEq] at h
    obtain ⟨hb, t, ht⟩ := (fromFiles_freshNode fs [] fs.tree root hf).builds rn [HObj.conf (Conf.ofDict Dict.empty)]
    have hheap : s.heap = (allocNode rn [HObj.conf (Conf.ofDict Dict.empty)] root).2 := by rw [← h]
    have hsec : s.section_ = (allocNode rn [HObj.conf (Conf.ofDict Dict.empty)] root).1 := by rw [← h]
    have hroot : s.rootName = rn := by rw [← h]
    have hloc : s.localConf = 0 := by rw [← h]
    have hattrs : s.attrs = [] := by rw [← h]
    have hfs : s.fs = fs := by rw [← h]
    have hlocal : s.heap[s.localConf]? = some (.conf (Conf.ofDict Dict.empty)) := by
      rw [hloc, hheap, ht]; rfl
    rw [← hheap, ← hsec] at hb
    simp only [List.length_singleton] at hb
    have hwalk : ∀ q, CleanPath rn q → q ≠ [] →
        match root.walk managerReserved rn q with
        | .ok n' => ∃ r' lo' hi', s.find q = some (.ref r') ∧ Built s.heap (q.getLast?.getD rn) n' r' lo' hi'
        | .error _ => s.find q = none := by
      intro q hq hne
      rw [Node.walk_managerReserved hq.2]
      have hw := Built.walk q hb hq.1 (notReserved_section hq.2)
      obtain ⟨x, q', rfl⟩ : ∃ x q', q = x :: q' := by
        cases q with
        | nil => exact absurd rfl hne
        | cons x q' => exact ⟨x, q', rfl⟩
      unfold HS.find
      rw [HS.walk_mgr hattrs hq.2.1]
      cases hn : root.walk sectionReserved rn (x :: q') with
      | error e =>
        rw [hn] at hw
        obtain ⟨e', hw⟩ := hw
        rw [hw]
      | ok n' =>
        rw [hn] at hw
        obtain ⟨r', lo', hi', hw, hb', -⟩ := hw
        rw [hw]
        exact ⟨r', lo', hi', rfl, hb'⟩
    -- the places as ways down from the section
    have haddr : ∀ a : Place, a.Clean rn → a ≠ .loc → ∀ r, s.place a = some r → ∃ q b, CleanPath rn q ∧
        s.addr (.ref s.section_) q b = some r ∧
        (a = if b then .cfg q else if q = [] then .root else .item q) := by
      intro a ha hal r hr
      have hfind : ∀ q, CleanPath rn q → q ≠ [] → ∀ r, s.find q = some (.ref r) → s.walk (.ref s.section_) q = .ok (.ref r) := by
        intro q hq hne r hr
        have := HS.walk_of_find hr
        cases q with
        | nil => exact absurd rfl hne
        | cons x q' => rwa [HS.walk_mgr hattrs hq.2.1] at this
      cases a with
      | loc => exact absurd rfl hal
      | root =>
        cases hr
        exact ⟨[], false, CleanPath.nil _, rfl, rfl⟩
      | item q =>
        refine ⟨q, false, ha, ?_, ?_⟩
        · simp only [HS.place] at hr
          by_cases hne : q = []
          · subst hne; rw [HS.find_nil] at hr; cases hr
          · cases hfq : s.find q with
            | none => rw [hfq] at hr; cases hr
            | some v =>
              rw [hfq] at hr
              cases v <;> simp at hr
              subst hr
              simp [HS.addr, hfind q ha hne _ hfq]
        · have hne : q ≠ [] := by
            rintro rfl
            simp [HS.place, HS.find_nil] at hr
          simp [hne]
      | cfg q =>
        refine ⟨q, true, ha, ?_, rfl⟩
        simp only [HS.place] at hr
        by_cases hne : q = []
        · subst hne
          rw [HS.find_nil] at hr
          exact hr
        · cases hfq : s.find q with
          | none => rw [hfq] at hr; cases hr
          | some v =>
            rw [hfq] at hr
            cases v with
            | mgr => exact absurd (find_mgr hfq) hne
            | ref r' =>
              simp only at hr
              simp [HS.addr, hfind q ha hne _ hfq, hr]
            | none => cases hr
            | other => cases hr
    have hrange : ∀ a : Place, a.Clean rn → a ≠ .loc → ∀ r, s.place a = some r → 1 ≤ r ∧ r < s.heap.length := by
      intro a ha hal r hr
      obtain ⟨q, b, hq, hadd, -⟩ := haddr a ha hal r hr
      exact hb.addr_range hq.1 (notReserved_section hq.2) hadd
    have hinv : HInv s := by
      refine ⟨?_, ?_, ?_, ⟨_, hlocal⟩, ?_, ?_⟩
      · intro a r ha hr
        rw [hroot] at ha
        by_cases hal : a = .loc
        · subst hal
          cases hr
          exact (List.getElem?_eq_some_iff.1 hlocal).1
        · exact (hrange a ha hal r hr).2
      · intro a b r ha hb' hra hrb
        rw [hroot] at ha hb'
        by_cases h1 : a = .loc
        · by_cases h2 : b = .loc
          · rw [h1, h2]
          · exfalso
            subst h1
            cases hra
            have := (hrange b hb' h2 _ hrb).1
            omega
        · by_cases h2 : b = .loc
          · exfalso
            subst h2
            cases hrb
            have := (hrange a ha h1 _ hra).1
            omega
          · obtain ⟨q1, b1, hq1, ha1, e1⟩ := haddr a ha h1 r hra
            obtain ⟨q2, b2, hq2, ha2, e2⟩ := haddr b hb' h2 r hrb
            obtain ⟨e3, e4⟩ := Built.addr_inj q1 hb hq1.1 (notReserved_section hq1.2) hq2.1 (notReserved_section hq2.2) ha1 ha2
            rw [e1, e2, e3, e4]
      · have hrt : ∃ cfg map, root = .sect cfg [] map := by
          cases fromFiles_freshNode fs [] _ root hf with
          | file l =>
            exfalso
            generalize fs.tree = T at hf
            obtain ⟨hasSection, files, dirs⟩ := T
            simp only [fromFiles] at hf
            cases h1 : sectionConfig fs [] hasSection with
            | error e => rw [h1] at hf; cases hf
            | ok cfg =>
              rw [h1] at hf
              cases h2 : fromFilesDirs fs [] dirs with
              | error e => rw [h2] at hf; cases hf
              | ok sections => rw [h2] at hf; cases hf
          | sect cfg map _ => exact ⟨cfg, map, rfl⟩
        obtain ⟨cfg, map, hrt⟩ := hrt
        rw [hrt] at hb
        rw [hroot]
        cases hb with
        | sect rc rmap k lo' hi' h1 => exact ⟨_, _, _, h1⟩
      · intro q r hq hr
        rw [hroot] at hq
        simp only [HS.place] at hr
        by_cases hne : q = []
        · subst hne
          rw [HS.find_nil] at hr
          exact (hb.cfgOf_range hr).2.2.2
        · have hw := hwalk q hq hne
          cases hn : root.walk managerReserved rn q with
          | error e => rw [hn] at hw; rw [show s.find q = none from hw] at hr; cases hr
          | ok n' =>
            rw [hn] at hw
            obtain ⟨r', lo', hi', hw, hb'⟩ := hw
            rw [hw] at hr
            exact (hb'.cfgOf_range hr).2.2.2
      · intro q r nm cfg attrs map hq hfq ho
        rw [hroot] at hq ⊢
        by_cases hne : q = []
        · subst hne; rw [HS.find_nil] at hfq; cases hfq
        · have hw := hwalk q hq hne
          cases hn : root.walk managerReserved rn q with
          | error e => rw [hn] at hw; rw [show s.find q = none from hw] at hfq; cases hfq
          | ok n' =>
            rw [hn] at hw
            obtain ⟨r', lo', hi', hw, hb'⟩ := hw
            rw [hw] at hfq
            cases hfq
            exact hb'.name ho
    refine ⟨hinv, hroot, { fs, rootName := rn, root, localConf := Conf.ofDict Dict.empty }, by unfold CM.load; rw [hf], ?_⟩
    show View.mk _ _ _ _ = View.mk _ _ _ _
    rw [hfs, hroot]
    congr 1
    · show (s.confAt s.localConf).getD _ = _
      rw [HS.confAt_some.2 hlocal]; rfl
    · funext q
      show (if CleanPath rn q then _ else _) = (if CleanPath rn q then Node.slotOf (root.walk managerReserved rn q) else _)
      by_cases hq : CleanPath rn q
      · rw [if_pos hq, if_pos hq]
        unfold HS.hslot
        by_cases hne : q = []
        · subst hne
          rw [HS.find_nil]
          exact hb.slotAt
        · have hw := hwalk q hq hne
          cases hn : root.walk managerReserved rn q with
          | error e => rw [hn] at hw; rw [show s.find q = none from hw]; rfl
          | ok n' =>
            rw [hn] at hw
            obtain ⟨r', lo', hi', hw, hb'⟩ := hw
            rw [hw]
            exact hb'.slotAt
      · rw [if_neg hq, if_neg hq]

end Verif.Model
