import Verif.Py.Str

/-
Imperative Python code with exceptions: a computation reads and changes a state and
either returns or raises; the state changes made before an exception are kept.
-/

namespace Verif.Py

/-- A computation with state `σ`, exceptions `ε` and result `α`. -/
def M (ε σ α : Type) : Type := σ → Except ε α × σ

namespace M
variable {ε σ α β : Type}

/-- `return a` -/
protected def pure (a : α) : M ε σ α := fun s => (.ok a, s)

/-- Sequencing; an exception stops the computation. -/
protected def bind (m : M ε σ α) (f : α → M ε σ β) : M ε σ β := fun s =>
  match m s with
  | (.ok a, s') => f a s'
  | (.error e, s') => (.error e, s')

instance : Monad (M ε σ) where
  pure := M.pure
  bind := M.bind

/-- `raise e` -/
def raise (e : ε) : M ε σ α := fun s => (.error e, s)

/-- Read the state. -/
def get : M ε σ σ := fun s => (.ok s, s)

/-- Change the state. -/
def modify (f : σ → σ) : M ε σ Unit := fun s => (.ok (), f s)

/-- A pure computation that may raise. -/
def liftE (x : Except ε α) : M ε σ α := fun s => (x, s)

/-- `try: m except: h` (the state changes of `m` stay). -/
def tryCatch (m : M ε σ α) (h : ε → M ε σ α) : M ε σ α := fun s =>
  match m s with
  | (.ok a, s') => (.ok a, s')
  | (.error e, s') => h e s'

@[simp] theorem pure_run (a : α) (s : σ) : (pure a : M ε σ α) s = (.ok a, s) := rfl

theorem bind_run (m : M ε σ α) (f : α → M ε σ β) (s : σ) :
    (m >>= f) s = match m s with
      | (.ok a, s') => f a s'
      | (.error e, s') => (.error e, s') := rfl

theorem bind_ok {m : M ε σ α} {f : α → M ε σ β} {s s' : σ} {a : α} (h : m s = (.ok a, s')) :
    (m >>= f) s = f a s' := by rw [bind_run, h]

theorem bind_error {m : M ε σ α} {f : α → M ε σ β} {s s' : σ} {e : ε} (h : m s = (.error e, s')) :
    (m >>= f) s = (.error e, s') := by rw [bind_run, h]

@[simp] theorem raise_run (e : ε) (s : σ) : (raise e : M ε σ α) s = (.error e, s) := rfl
@[simp] theorem get_run (s : σ) : (get : M ε σ σ) s = (.ok s, s) := rfl
@[simp] theorem modify_run (f : σ → σ) (s : σ) : (modify f : M ε σ Unit) s = (.ok (), f s) := rfl
@[simp] theorem liftE_run (x : Except ε α) (s : σ) : (liftE x : M ε σ α) s = (x, s) := rfl

instance : LawfulMonad (M ε σ) := LawfulMonad.mk' (M ε σ)
  (id_map := by
    intro α x; funext s
    show M.bind x (fun a => M.pure (id a)) s = x s
    unfold M.bind M.pure
    cases x s with
    | mk a s' => cases a <;> rfl)
  (pure_bind := by intros; rfl)
  (bind_assoc := by
    intro α β γ x f g; funext s
    show M.bind (M.bind x f) g s = M.bind x (fun a => M.bind (f a) g) s
    unfold M.bind
    cases x s with
    | mk a s' => cases a <;> rfl)

/-- `m` keeps the relation `R` between the state before and the state after, whether it
returns or raises. -/
def Keeps (R : σ → σ → Prop) (m : M ε σ α) : Prop := ∀ s, R s (m s).2

namespace Keeps
variable {R : σ → σ → Prop}

theorem pure (hr : ∀ s, R s s) (a : α) : Keeps R (Pure.pure a : M ε σ α) := fun s => hr s
theorem raise (hr : ∀ s, R s s) (e : ε) : Keeps R (M.raise e : M ε σ α) := fun s => hr s
theorem get (hr : ∀ s, R s s) : Keeps R (M.get : M ε σ σ) := fun s => hr s
theorem liftE (hr : ∀ s, R s s) (x : Except ε α) : Keeps R (M.liftE x : M ε σ α) := fun s => hr s
theorem modify {f : σ → σ} (h : ∀ s, R s (f s)) : Keeps R (M.modify f : M ε σ Unit) := h

theorem bind (ht : ∀ a b c, R a b → R b c → R a c) {m : M ε σ α} {f : α → M ε σ β}
    (hm : Keeps R m) (hf : ∀ a, Keeps R (f a)) : Keeps R (m >>= f) := by
  intro s
  rw [bind_run]
  have h := hm s
  cases hh : m s with
  | mk r s' =>
    rw [hh] at h
    cases r with
    | ok a => exact ht _ _ _ h (hf a s')
    | error e => exact h

theorem tryCatch (ht : ∀ a b c, R a b → R b c → R a c) {m : M ε σ α} {h : ε → M ε σ α}
    (hm : Keeps R m) (hf : ∀ e, Keeps R (h e)) : Keeps R (M.tryCatch m h) := by
  intro s
  have h1 := hm s
  unfold M.tryCatch
  cases hh : m s with
  | mk r s' =>
    rw [hh] at h1
    cases r with
    | ok a => exact h1
    | error e => exact ht _ _ _ h1 (hf e s')

end Keeps
end M
end Verif.Py
