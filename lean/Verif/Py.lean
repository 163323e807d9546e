/-!
# Python exceptions as values

The modelled functions return `Except PyErr α`; the constructors are the Python exception classes that the
modelled code raises itself or that the modelled numpy / builtin operations raise.
-/

namespace Verif

/-- Python exception classes that occur in the modelled code. -/
inductive PyErr where
  | typeError
  | valueError
  | indexError
  | runtimeError
  | attributeError
  | moduleNotFoundError
  | keyError
  | osError
  | nameError
  deriving DecidableEq, Repr

theorem bind_ok {α β : Type} {x : Except PyErr α} {f : α → Except PyErr β} {b : β} :
    (x >>= f) = .ok b ↔ ∃ a, x = .ok a ∧ f a = .ok b := by
  cases x with
  | error e => simp [bind, Except.bind]
  | ok a => simp [bind, Except.bind]

theorem bind_error {α β : Type} {x : Except PyErr α} {f : α → Except PyErr β} {e : PyErr} :
    (x >>= f) = .error e ↔ x = .error e ∨ ∃ a, x = .ok a ∧ f a = .error e := by
  cases x with
  | error e => simp [bind, Except.bind]
  | ok a => simp [bind, Except.bind]

@[simp] theorem ok_bind {α β : Type} {f : α → Except PyErr β} {a : α} : (Except.ok a >>= f) = f a := rfl

@[simp] theorem error_bind {α β : Type} {f : α → Except PyErr β} {e : PyErr} :
    ((Except.error e : Except PyErr α) >>= f) = .error e := rfl

@[simp] theorem pure_eq_ok {α : Type} (a : α) : (pure a : Except PyErr α) = .ok a := rfl

theorem mapM_ok {α β : Type} (f : α → Except PyErr β) (g : α → β) : ∀ l : List α, (∀ a ∈ l, f a = .ok (g a)) →
    l.mapM f = .ok (l.map g)
  | [], _ => rfl
  | a :: l, h => by
    rw [List.mapM_cons, h a (by simp), mapM_ok f g l (fun b hb => h b (by simp [hb]))]
    rfl

end Verif
