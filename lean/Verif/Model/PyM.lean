import Verif.Model.Bits

/-!
# Python statements with effects

A Python statement that may change the state and may raise an exception. When it raises, the changes made before
the exception persist. This is Python language semantics, not code of the repository.
-/

namespace Dronecan

/-- A Python computation over a mutable state `σ`: it finishes with a value or an exception, and a new state. -/
abbrev PyM (σ α : Type) := σ → Except Err α × σ

namespace PyM
variable {σ α β : Type}

/-- Finish with a value. -/
protected def pure (a : α) : PyM σ α := fun s => (.ok a, s)

/-- Run one computation after another; an exception stops the sequence and keeps the state reached. -/
protected def bind (m : PyM σ α) (f : α → PyM σ β) : PyM σ β := fun s =>
  match m s with
  | (.ok a, s) => f a s
  | (.error e, s) => (.error e, s)

@[inherit_doc] scoped infixr:55 " >>- " => PyM.bind

/-- `raise e`. -/
def raise (e : Err) : PyM σ α := fun s => (.error e, s)

/-- Read the state. -/
def get : PyM σ σ := fun s => (.ok s, s)

/-- Replace the state. -/
def put (s : σ) : PyM σ Unit := fun _ => (.ok (), s)

/-- Change the state. -/
def modify (f : σ → σ) : PyM σ Unit := fun s => (.ok (), f s)

/-- A pure computation that may raise. -/
def lift (r : Except Err α) : PyM σ α := fun s => (r, s)

/-- `try: m  except: h(e)`. -/
def tryCatch (m : PyM σ α) (h : Err → PyM σ α) : PyM σ α := fun s =>
  match m s with
  | (.ok a, s) => (.ok a, s)
  | (.error e, s) => h e s

/-- `for x in xs: f(x)`. -/
def forEach (xs : List β) (f : β → PyM σ Unit) : PyM σ Unit :=
  match xs with
  | [] => PyM.pure ()
  | x :: xs => f x >>- fun _ => forEach xs f

@[simp] theorem pure_run (a : α) (s : σ) : (PyM.pure a : PyM σ α) s = (.ok a, s) := rfl

@[simp] theorem bind_run (m : PyM σ α) (f : α → PyM σ β) (s : σ) :
    PyM.bind m f s = match m s with
      | (.ok a, s) => f a s
      | (.error e, s) => (.error e, s) := rfl

@[simp] theorem raise_run (e : Err) (s : σ) : (raise e : PyM σ α) s = (.error e, s) := rfl
@[simp] theorem get_run (s : σ) : (get : PyM σ σ) s = (.ok s, s) := rfl
@[simp] theorem put_run (s t : σ) : (put t : PyM σ Unit) s = (.ok (), t) := rfl
@[simp] theorem modify_run (f : σ → σ) (s : σ) : (modify f : PyM σ Unit) s = (.ok (), f s) := rfl
@[simp] theorem lift_run (r : Except Err α) (s : σ) : (lift r : PyM σ α) s = (r, s) := rfl

end PyM
end Dronecan
