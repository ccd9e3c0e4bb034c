import Verif.Model.BatchHooks
import Verif.Props.IterateRun

/-
C93: a batch update applies the updates it is given and those that plugins add, once each, whatever kind of iterable they are.
-/

namespace Verif.Props
open Verif.Py Verif.Model

variable {V U σ : Type}

/-! ### What is asked -/

/-- Updates one after the other, up to the first that raises. -/
def applyEach (upd : U → M PyErr σ Unit) : List U → σ → Except PyErr Unit × σ
  | [], b => (.ok (), b)
  | x :: xs, b => match upd x b with
    | (.error e, b') => (.error e, b')
    | (.ok (), b') => applyEach upd xs b'

/-- The iterators among some iterables. -/
def iteratorsIn : List (Iterable U) → List Nat
  | [] => []
  | .list _ :: rs => iteratorsIn rs
  | .iter i :: rs => i :: iteratorsIn rs

theorem applyEach_append (upd : U → M PyErr σ Unit) (xs ys : List U) (b : σ) :
    applyEach upd (xs ++ ys) b = match applyEach upd xs b with
      | (.error e, b') => (.error e, b')
      | (.ok (), b') => applyEach upd ys b' := by
  induction xs generalizing b with
  | nil => rfl
  | cons x xs ih =>
    rw [List.cons_append, applyEach, applyEach]
    rcases upd x b with ⟨r, b'⟩
    cases r with
    | error e => rfl
    | ok u => exact ih b'

/-- For managers these are the updates of C35. -/
theorem applyEach_updates [BEq V] (base : Option String) (strip : Bool) (us : List (Upd V)) (s : Mgrs V) :
    applyEach (BM.update1 base strip) us s = BM.updates base strip us s := by
  induction us generalizing s with
  | nil => rfl
  | cons u us ih =>
    rw [applyEach, BM.updates, M.bind_run]
    rcases BM.update1 base strip u s with ⟨r, s'⟩
    cases r with
    | error e => rfl
    | ok x => exact ih s'

/-! ### The loops -/

theorem loopOne_run (upd : U → M PyErr σ Unit) (i : Option Nat) (x : U) (xs : List U) (s : WithIters U σ) :
    loopOne upd i (x :: xs) s =
      (match upd x s.base with
      | (.error e, b) => (.error e, ⟨b, s.iters.taken i xs⟩)
      | (.ok (), b) => loopOne upd i xs ⟨b, s.iters.taken i xs⟩) := by
  rw [loopOne]
  have h1 : M.modify (ε := PyErr) (fun s : WithIters U σ => { s with iters := s.iters.taken i xs }) s =
      (.ok (), ⟨s.base, s.iters.taken i xs⟩) := rfl
  rw [M.bind_ok h1, M.bind_run]
  unfold onBase
  dsimp only
  rcases upd x s.base with ⟨r, b⟩
  cases r <;> rfl

theorem taken_other {i : Option Nat} {j : Nat} (h : i ≠ some j) (hs : Iters U) (xs : List U) : hs.taken i xs j = hs j := by
  cases i with
  | none => rfl
  | some i =>
    show Iters.leave _ _ _ _ = _
    unfold Iters.leave
    rw [if_neg (fun hh => h (by rw [hh]))]

theorem taken_self (hs : Iters U) (j : Nat) (xs : List U) : hs.taken (some j) xs j = xs := by
  show Iters.leave _ _ _ _ = _
  unfold Iters.leave
  rw [if_pos rfl]

/-- A loop over an iterable applies what is in it, changes no other iterator, and leaves nothing if nothing raised. -/
theorem loopOne_spec (upd : U → M PyErr σ Unit) (i : Option Nat) (xs : List U) (s : WithIters U σ)
    (hi : ∀ j, i = some j → s.iters j = xs) :
    ((loopOne upd i xs s).1, (loopOne upd i xs s).2.base) = applyEach upd xs s.base ∧
    (∀ j, i ≠ some j → (loopOne upd i xs s).2.iters j = s.iters j) ∧
    ((applyEach upd xs s.base).1 = .ok () → ∀ j, i = some j → (loopOne upd i xs s).2.iters j = []) := by
  induction xs generalizing s with
  | nil =>
    refine ⟨rfl, fun _ _ => rfl, fun _ j hj => ?_⟩
    exact hi j hj
  | cons x xs ih =>
    rw [loopOne_run, applyEach]
    rcases upd x s.base with ⟨r, b⟩
    cases r with
    | error e =>
      refine ⟨rfl, ?_, ?_⟩
      · intro j hj
        exact taken_other hj _ _
      · intro h
        cases h
    | ok u =>
      dsimp only
      obtain ⟨h1, h2, h3⟩ := ih ⟨b, s.iters.taken i xs⟩ (by
        intro j hj
        subst hj
        exact taken_self _ _ _)
      refine ⟨h1, ?_, h3⟩
      intro j hj
      rw [h2 j hj]
      exact taken_other hj _ _

/-- A loop over a chain of iterables, each iterator once. -/
theorem loopChain_spec (upd : U → M PyErr σ Unit) (rs : List (Iterable U)) (hd : (iteratorsIn rs).Nodup) (s : WithIters U σ) :
    ((loopChain upd rs s).1, (loopChain upd rs s).2.base) = applyEach upd (rs.flatMap (fun r => r.read s.iters)) s.base ∧
    (∀ j, j ∉ iteratorsIn rs → (loopChain upd rs s).2.iters j = s.iters j) ∧
    ((applyEach upd (rs.flatMap (fun r => r.read s.iters)) s.base).1 = .ok () →
      ∀ j ∈ iteratorsIn rs, (loopChain upd rs s).2.iters j = []) := by
  induction rs generalizing s with
  | nil => exact ⟨rfl, fun _ _ => rfl, fun _ j hj => by cases hj⟩
  | cons r rs ih =>
    -- the loop over the first, whichever it is
    have step : ∀ (i : Option Nat) (xs : List U), (∀ j, i = some j → s.iters j = xs) → (∀ j, i = some j → j ∉ iteratorsIn rs) →
        (iteratorsIn rs).Nodup → ∀ m : M PyErr (WithIters U σ) Unit,
        m = (loopOne upd i xs >>= fun _ => loopChain upd rs) →
        ((m s).1, (m s).2.base) = applyEach upd (xs ++ rs.flatMap (fun r => r.read s.iters)) s.base ∧
        (∀ j, i ≠ some j → j ∉ iteratorsIn rs → (m s).2.iters j = s.iters j) ∧
        ((applyEach upd (xs ++ rs.flatMap (fun r => r.read s.iters)) s.base).1 = .ok () →
          ∀ j, (i = some j ∨ j ∈ iteratorsIn rs) → (m s).2.iters j = []) := by
      intro i xs hi hni hnd m hm
      subst hm
      obtain ⟨h1, h2, h3⟩ := loopOne_spec upd i xs s hi
      rw [M.bind_run, applyEach_append]
      obtain ⟨r1, s1, hl⟩ : ∃ r1 s1, loopOne upd i xs s = (r1, s1) := ⟨_, _, rfl⟩
      rw [hl] at h1 h2 h3 ⊢
      dsimp only at h1 h2 h3
      rw [← h1]
      cases r1 with
      | error e =>
        refine ⟨rfl, fun j hj _ => h2 j hj, ?_⟩
        intro h
        cases h
      | ok u =>
        dsimp only
        have hsame : rs.flatMap (fun r => r.read s1.iters) = rs.flatMap (fun r => r.read s.iters) := by
          have key : ∀ rs' : List (Iterable U), (∀ j ∈ iteratorsIn rs', i ≠ some j) →
              rs'.flatMap (fun r => r.read s1.iters) = rs'.flatMap (fun r => r.read s.iters) := by
            intro rs' hne
            induction rs' with
            | nil => rfl
            | cons r' rs' ih' =>
              rw [List.flatMap_cons, List.flatMap_cons]
              cases r' with
              | list ys => rw [ih' hne]; rfl
              | iter k =>
                rw [ih' (fun j hj => hne j (List.mem_cons_of_mem _ hj))]
                have : s1.iters k = s.iters k := h2 k (hne k List.mem_cons_self)
                simp only [Iterable.read, this]
          exact key rs (fun j hj hij => hni j hij hj)
        obtain ⟨g1, g2, g3⟩ := ih hnd s1
        rw [hsame] at g1 g3
        refine ⟨g1, ?_, ?_⟩
        · intro j hj hjr
          rw [g2 j hjr, h2 j hj]
        · intro hok j hj
          by_cases hjr : j ∈ iteratorsIn rs
          · exact g3 hok j hjr
          · rw [g2 j hjr]
            rcases hj with hj | hj
            · exact h3 (by rw [← h1]) j hj
            · exact absurd hj hjr
    cases r with
    | list xs =>
      obtain ⟨g1, g2, g3⟩ := step none xs (by simp) (by simp) hd (loopChain upd (.list xs :: rs)) (by rw [loopChain])
      exact ⟨g1, fun j hj => g2 j (by simp) hj, fun hok j hj => g3 hok j (.inr hj)⟩
    | iter i =>
      have hd' : i ∉ iteratorsIn rs ∧ (iteratorsIn rs).Nodup := by
        have : (i :: iteratorsIn rs).Nodup := hd
        rwa [List.nodup_cons] at this
      obtain ⟨g1, g2, g3⟩ := step (some i) (s.iters i) (by intro j hj; cases hj; rfl) (by intro j hj; cases hj; exact hd'.1) hd'.2
        (loopOne upd (some i) (s.iters i) >>= fun _ => loopChain upd rs) rfl
      have he : loopChain upd (.iter i :: rs) s = (loopOne upd (some i) (s.iters i) >>= fun _ => loopChain upd rs) s := by
        rw [loopChain]
        rfl
      rw [he]
      refine ⟨g1, ?_, ?_⟩
      · intro j hj
        have hj' : ¬ (j = i ∨ j ∈ iteratorsIn rs) := fun h => hj (List.mem_cons.2 h)
        rw [not_or] at hj'
        exact g2 j (fun h => hj'.1 (by cases h; rfl)) hj'.2
      · intro hok j hj
        refine g3 hok j ?_
        rcases List.mem_cons.1 hj with h | h
        · exact .inl (by rw [h])
        · exact .inr h

/-! ### Calling the plugins -/

theorem callBatch_append (ps qs : List (BatchPlugin U)) (us : Iterable U) (h : Iters U) :
    callBatch (ps ++ qs) us h =
      ((callBatch ps us h).1 ++ (callBatch qs us (callBatch ps us h).2).1, (callBatch qs us (callBatch ps us h).2).2) := by
  induction ps generalizing h with
  | nil => rfl
  | cons p ps ih =>
    rw [List.cons_append, callBatch, callBatch]
    dsimp only
    rw [ih]
    cases (p.pre us h).1 <;> rfl

theorem callBatch_registered (ps : List (BatchPlugin U)) (us : Iterable U) (h : Iters U) {rs : List (Iterable U)} {h1 : Iters U}
    (hc : callBatch ps.reverse us h = (rs, h1)) : callBatch (registered ps) us h = (rs ++ [us], h1) := by
  unfold registered
  rw [callBatch_append, hc]
  rfl

theorem batchUpdate_run (upd : U → M PyErr σ Unit) (plugins : List (BatchPlugin U)) (us : Iterable U) (s : WithIters U σ)
    {rs : List (Iterable U)} {h1 : Iters U} (hc : callBatch plugins us s.iters = (rs, h1)) :
    batchUpdate upd plugins us s = match loopChain upd rs ⟨s.base, h1⟩ with
      | (.error e, s') => (.error e, s')
      | (.ok (), s') => (.ok (), { s' with iters := plugins.foldl (fun h p => p.post us h) s'.iters }) := by
  unfold batchUpdate
  rw [M.bind_run]
  simp only [M.get]
  rw [M.bind_run]
  simp only [M.modify]
  rw [hc]
  dsimp only
  rw [M.bind_run]
  obtain ⟨r, s', hl⟩ : ∃ r s', loopChain upd rs ⟨s.base, h1⟩ = (r, s') := ⟨_, _, rfl⟩
  rw [hl]
  cases r <;> rfl

/-! ### The theorems -/

/-- C93: a batch update applies first what plugins give, the plugin that was registered last first, and then the updates it was
given, once each and up to the first that raises, if no plugin reads or returns an iterator that is not its own: the iterators are
different ones, and the updates it was given are still there after the plugins were called. -/
theorem C93_applied_partial (upd : U → M PyErr σ Unit) (ps : List (BatchPlugin U)) (us : Iterable U) (s : WithIters U σ)
    (rs : List (Iterable U)) (h1 : Iters U) (hc : callBatch ps.reverse us s.iters = (rs, h1))
    (hd : (iteratorsIn (rs ++ [us])).Nodup) (hr : us.read h1 = us.read s.iters) :
    ((batchUpdate upd (registered ps) us s).1, (batchUpdate upd (registered ps) us s).2.base) =
      applyEach upd (rs.flatMap (fun r => r.read h1) ++ us.read s.iters) s.base := by
  rw [batchUpdate_run upd _ us s (callBatch_registered ps us s.iters hc)]
  obtain ⟨g1, _, _⟩ := loopChain_spec upd (rs ++ [us]) hd ⟨s.base, h1⟩
  dsimp only at g1
  rw [List.flatMap_append, List.flatMap_cons, List.flatMap_nil, List.append_nil, hr] at g1
  rw [← g1]
  obtain ⟨r, s', hl⟩ : ∃ r s', loopChain upd (rs ++ [us]) ⟨s.base, h1⟩ = (r, s') := ⟨_, _, rfl⟩
  rw [hl]
  cases r <;> rfl

/-- C93 for any order of calls (`tryfirst`, `trylast`): what the plugins called before the default one give comes before the updates,
what those called after it give comes after them. -/
theorem C93_anywhere_partial (upd : U → M PyErr σ Unit) (ps qs : List (BatchPlugin U)) (us : Iterable U) (s : WithIters U σ)
    (rs rs' : List (Iterable U)) (h1 h2 : Iters U) (hc : callBatch ps us s.iters = (rs, h1)) (hc' : callBatch qs us h1 = (rs', h2))
    (hd : (iteratorsIn (rs ++ us :: rs')).Nodup) (hr : us.read h2 = us.read s.iters) :
    ((batchUpdate upd (ps ++ defaultBatch :: qs) us s).1, (batchUpdate upd (ps ++ defaultBatch :: qs) us s).2.base) =
      applyEach upd (rs.flatMap (fun r => r.read h2) ++ (us.read s.iters ++ rs'.flatMap (fun r => r.read h2))) s.base := by
  have hcall : callBatch (ps ++ defaultBatch :: qs) us s.iters = (rs ++ us :: rs', h2) := by
    rw [callBatch_append, hc, callBatch]
    show (rs ++ us :: (callBatch qs us h1).1, (callBatch qs us h1).2) = _
    rw [hc']
  rw [batchUpdate_run upd _ us s hcall]
  obtain ⟨g1, _, _⟩ := loopChain_spec upd (rs ++ us :: rs') hd ⟨s.base, h2⟩
  dsimp only at g1
  rw [List.flatMap_append, List.flatMap_cons, hr] at g1
  rw [← g1]
  obtain ⟨r, s', hl⟩ : ∃ r s', loopChain upd (rs ++ us :: rs') ⟨s.base, h2⟩ = (r, s') := ⟨_, _, rfl⟩
  rw [hl]
  cases r <;> rfl

/-- C93 without plugins: every update is applied, whatever kind of iterable it comes from. -/
theorem C93_plain (upd : U → M PyErr σ Unit) (us : Iterable U) (s : WithIters U σ) :
    ((batchUpdate upd (registered []) us s).1, (batchUpdate upd (registered []) us s).2.base) =
      applyEach upd (us.read s.iters) s.base := by
  have := C93_applied_partial upd [] us s [] s.iters rfl (by cases us <;> simp [iteratorsIn]) rfl
  simpa using this

/-- C93 for lists: if lists are passed and returned, nothing more is asked. -/
theorem C93_lists (upd : U → M PyErr σ Unit) (ps : List (BatchPlugin U)) (xs : List U) (s : WithIters U σ)
    (rs : List (List U)) (h1 : Iters U) (hc : callBatch ps.reverse (.list xs) s.iters = (rs.map .list, h1)) :
    ((batchUpdate upd (registered ps) (.list xs) s).1, (batchUpdate upd (registered ps) (.list xs) s).2.base) =
      applyEach upd (rs.flatten ++ xs) s.base := by
  have hit : ∀ rs : List (List U), iteratorsIn (rs.map .list ++ [.list xs]) = [] := by
    intro rs
    induction rs with
    | nil => rfl
    | cons r rs ih => exact ih
  have := C93_applied_partial upd ps (.list xs) s (rs.map .list) h1 hc (by rw [hit]; exact List.nodup_nil) rfl
  rw [this]
  congr 2
  rw [List.flatMap_map]
  induction rs with
  | nil => rfl
  | cons r rs ih => simp [Iterable.read]

/-- C93 for managers: what `update_batch` does is what C35 says about the updates of the plugins followed by those that were
given. -/
theorem C93_managers_partial [BEq V] (name : String) (ps : List (BatchPlugin (Upd V))) (us : Iterable (Upd V))
    (s : WithIters (Upd V) (Mgrs V)) (rs : List (Iterable (Upd V))) (h1 : Iters (Upd V))
    (hc : callBatch ps.reverse us s.iters = (rs, h1)) (hd : (iteratorsIn (rs ++ [us])).Nodup) (hr : us.read h1 = us.read s.iters) :
    ((updateBatchWith name (registered ps) us s).1, (updateBatchWith name (registered ps) us s).2.base) =
      BM.updates (some name) true (rs.flatMap (fun r => r.read h1) ++ us.read s.iters) s.base := by
  rw [← applyEach_updates]
  exact C93_applied_partial _ ps us s rs h1 hc hd hr

/-- C93, an update that raises: the updates before it are applied, those after it are not, and an iterator still has them. -/
theorem C93_raised (upd : U → M PyErr σ Unit) (i : Nat) (pre post : List U) (x : U) (s : WithIters U σ) (e : PyErr) (b b' : σ)
    (hi : s.iters i = pre ++ x :: post) (hpre : applyEach upd pre s.base = (.ok (), b)) (hx : upd x b = (.error e, b')) :
    ∃ s', batchUpdate upd (registered []) (.iter i) s = (.error e, s') ∧ s'.base = b' ∧ s'.iters i = post := by
  rw [batchUpdate_run upd _ (.iter i) s (callBatch_registered [] (.iter i) s.iters rfl)]
  have hl : loopChain upd [.iter i] ⟨s.base, s.iters⟩ = (loopOne upd (some i) (pre ++ x :: post) >>= fun _ => loopChain upd []) s := by
    rw [← hi, loopChain]
    rfl
  have key : ∀ (pre : List U) (s : WithIters U σ), applyEach upd pre s.base = (.ok (), b) →
      ∃ s', loopOne upd (some i) (pre ++ x :: post) s = (.error e, s') ∧ s'.base = b' ∧ s'.iters i = post := by
    intro pre
    induction pre with
    | nil =>
      intro s hs
      cases hs
      rw [List.nil_append, loopOne_run, hx]
      exact ⟨_, rfl, rfl, taken_self _ _ _⟩
    | cons y pre ih =>
      intro s hs
      rw [applyEach] at hs
      rw [List.cons_append, loopOne_run]
      rcases hu : upd y s.base with ⟨r, b2⟩
      rw [hu] at hs
      cases r with
      | error e2 => cases hs
      | ok u => exact ih _ hs
  obtain ⟨s', h1, h2, h3⟩ := key pre s hpre
  rw [List.nil_append, hl, M.bind_run, h1]
  exact ⟨s', rfl, h2, h3⟩

/-! ### What fails -/

/-- A plugin that looks through the updates, to log them for example. -/
def readerPlugin : BatchPlugin U :=
  ⟨fun us h => match us with | .iter i => (none, h.leave i []) | .list _ => (none, h), fun _ h => h⟩

/-- A plugin that returns the updates, as the default one does. -/
def returningPlugin : BatchPlugin U := ⟨fun us h => (some us, h), fun _ h => h⟩

/-- A plugin that writes down in `k` what it is given afterwards. -/
def witnessPlugin (k : Nat) : BatchPlugin U := ⟨fun _ h => (none, h), fun us h => h.leave k (us.read h)⟩

/-- C93 fails for iterators if a plugin looks through the updates: none is applied. -/
theorem C93_read_violated (upd : U → M PyErr σ Unit) (i : Nat) (s : WithIters U σ) :
    ∃ h, batchUpdate upd (registered [readerPlugin]) (.iter i) s = (.ok (), ⟨s.base, h⟩) := by
  rw [batchUpdate_run upd _ (.iter i) s (callBatch_registered [readerPlugin] (.iter i) s.iters (rs := []) (h1 := s.iters.leave i []) rfl)]
  have hl : loopChain upd ([] ++ [.iter i]) ⟨s.base, s.iters.leave i []⟩ = (.ok (), ⟨s.base, s.iters.leave i []⟩) := by
    rw [List.nil_append, loopChain]
    show (loopOne upd (some i) (s.iters.leave i [] i) >>= fun _ => loopChain upd []) ⟨s.base, s.iters.leave i []⟩ = _
    have : s.iters.leave i [] i = [] := by unfold Iters.leave; rw [if_pos rfl]
    rw [this]
    rfl
  rw [hl]
  exact ⟨_, rfl⟩

/-- C93 fails for lists if a plugin returns the updates: all are applied twice. -/
theorem C93_returned_violated (upd : U → M PyErr σ Unit) (xs : List U) (s : WithIters U σ) :
    ((batchUpdate upd (registered [returningPlugin]) (.list xs) s).1,
      (batchUpdate upd (registered [returningPlugin]) (.list xs) s).2.base) = applyEach upd (xs ++ xs) s.base := by
  have := C93_lists upd [returningPlugin] xs s [xs] s.iters rfl
  simpa using this

/-- What the hook afterwards is given: a list as it is; C93 fails for iterators, of which nothing is left. -/
theorem C93_post_violated (upd : U → M PyErr σ Unit) (k : Nat) (us : Iterable U) (s : WithIters U σ) (b : σ)
    (hk : us ≠ .iter k) (hok : applyEach upd (us.read s.iters) s.base = (.ok (), b)) :
    (batchUpdate upd (registered [witnessPlugin k]) us s).2.iters k = match us with | .list xs => xs | .iter _ => [] := by
  rw [batchUpdate_run upd _ us s (callBatch_registered [witnessPlugin k] us s.iters (rs := []) (h1 := s.iters) rfl)]
  obtain ⟨g1, g2, g3⟩ := loopChain_spec upd ([] ++ [us]) (by cases us <;> simp [iteratorsIn]) ⟨s.base, s.iters⟩
  dsimp only at g1 g2 g3
  rw [List.nil_append, List.flatMap_cons, List.flatMap_nil, List.append_nil, hok] at g1 g3
  rw [List.nil_append]
  obtain ⟨r, s', hl⟩ : ∃ r s', loopChain upd [us] ⟨s.base, s.iters⟩ = (r, s') := ⟨_, _, rfl⟩
  rw [hl] at g1 g3 ⊢
  dsimp only at g1 g3
  have hr : r = .ok () := congrArg Prod.fst g1
  subst hr
  show Iters.leave _ _ _ _ = _
  unfold Iters.leave
  rw [if_pos rfl]
  cases us with
  | list xs => rfl
  | iter i => exact g3 rfl i (by simp [iteratorsIn])

/-- Without the default plugin nothing is applied. -/
theorem C93_removed_violated (upd : U → M PyErr σ Unit) (us : Iterable U) (s : WithIters U σ) :
    batchUpdate upd [] us s = (.ok (), s) := rfl

/-! ### Examples -/

/-- A plugin that adds an update. -/
def addingPlugin (xs : List U) : BatchPlugin U := ⟨fun _ h => (some (.list xs), h), fun _ h => h⟩

/-- Updates that are written down. -/
def noting (x : Nat) : M PyErr (List Nat) Unit := M.modify (fun s => s ++ [x])

example : (batchUpdate noting (registered [addingPlugin [1], addingPlugin [2]]) (.iter 0) ⟨[], fun _ => [7, 8]⟩).2.base = [2, 1, 7, 8] := by
  decide +kernel

/-- A plugin marked `trylast` is called after the default one. -/
example : (batchUpdate noting ([addingPlugin [1]] ++ defaultBatch :: [addingPlugin [2]]) (.iter 0) ⟨[], fun _ => [7, 8]⟩).2.base =
    [1, 7, 8, 2] := by decide +kernel

example : (batchUpdate noting (registered [readerPlugin]) (.iter 0) ⟨[], fun _ => [7, 8]⟩).2.base = [] := by decide +kernel

example : (batchUpdate noting (registered [readerPlugin]) (.list [7, 8]) ⟨[], fun _ => []⟩).2.base = [7, 8] := by decide +kernel

example : (batchUpdate noting (registered [returningPlugin]) (.list [7, 8]) ⟨[], fun _ => []⟩).2.base = [7, 8, 7, 8] := by decide +kernel

end Verif.Props
